import Verif.Bench.CompareMatch
import Verif.Prop.BenchCompare
import Verif.Prop.MatchCompare

/-!
# What the benchmark of the match functions checks (C171)
-/

namespace Carbon.Prop.BenchMatch

open Bench Prop.Match Prop.BenchCompare Spec Prop.Trade

/-- What a test of the file asks for. -/
def SameTask (t u : MatchTest) : Prop := t.bySource = u.bySource ∧ t.amount = u.amount ∧ t.orders = u.orders

def inputs (l : List Action) : ℤ := (l.map Action.input).sum

def outputs (l : List Action) : ℤ := (l.map Action.output).sum

/-- The best actions are no worse than the fast ones: by source they pay no more and receive no less, by target they receive no less and pay no more. -/
def NoWorse (bySource : Bool) (fast best : List Action) : Prop :=
  if bySource then inputs best ≤ inputs fast ∧ outputs fast ≤ outputs best else inputs fast ≤ inputs best ∧ outputs best ≤ outputs fast

/-- An action that its order can execute, at the order's own price. -/
def Executable (t : MatchTest) (a : Action) : Prop :=
  ∃ o, t.orders[a.id]? = some o ∧ (if t.bySource then a.output else a.input) ≤ o.liquidity ∧
    execute t.bySource a.input o.liquidity o.lowest o.highest o.marginal = .ok a.output

/-- A test that the benchmark passes. -/
def Passes (t : MatchTest) (fast best : List Action) : Prop :=
  executeMatch t.bySource t.amount t.orders = .ok (fast, best) ∧ fast ≠ [] ∧ best ≠ [] ∧
    inputs fast ≤ t.amount ∧ inputs best ≤ t.amount ∧ (∀ a ∈ fast ++ best, Executable t a) ∧ NoWorse t.bySource fast best

theorem assert_ok {p : Prop} [Decidable p] {u : Unit} : assertThat p = .ok u ↔ p := by
  unfold assertThat
  split <;> simp [*]

theorem width_ok {l : List Action} {u : Unit} : widthOf l = .ok u ↔ l ≠ [] := by
  unfold widthOf
  split <;> simp [*]

theorem check_ok {t : MatchTest} {a : Action} {u : Unit} : checkAction t.bySource t.orders a = .ok u ↔ Executable t a := by
  unfold checkAction Executable
  cases h : t.orders[a.id]? with
  | none => simp
  | some o =>
    simp only [Py.bind_eq_ok, assert_ok, Option.some.injEq, exists_eq_left']
    constructor
    · rintro ⟨-, h1, b, h2, h3⟩
      exact ⟨h1, h3 ▸ h2⟩
    · rintro ⟨h1, h2⟩
      exact ⟨(), h1, _, h2, rfl⟩

theorem forM_ok {α : Type} (f : α → Py Unit) (l : List α) {u : Unit} : l.forM f = .ok u ↔ ∀ a ∈ l, f a = .ok () := by
  induction l with
  | nil => simp [pure, Except.pure]
  | cons a l ih =>
    rw [show (a :: l).forM f = (f a >>= fun _ => l.forM f) from rfl]
    simp only [Py.bind_eq_ok, List.forall_mem_cons]
    constructor
    · rintro ⟨⟨⟩, h1, h2⟩
      exact ⟨h1, ih.1 h2⟩
    · rintro ⟨h1, h2⟩
      exact ⟨(), h1, ih.2 h2⟩

theorem checks_ok {t : MatchTest} {l : List Action} {u : Unit} :
    checkActions t.bySource t.amount t.orders l = .ok u ↔ inputs l ≤ t.amount ∧ ∀ a ∈ l, Executable t a := by
  unfold checkActions
  simp only [Py.bind_eq_ok, assert_ok, forM_ok, check_ok]
  exact ⟨fun ⟨_, h1, h2⟩ => ⟨h1, h2⟩, fun ⟨h1, h2⟩ => ⟨(), h1, h2⟩⟩

theorem runMatch_ok {t u : MatchTest} : runMatch t = .ok u ↔ ∃ fast best, Passes t fast best ∧ u = { t with fast := fast, best := best } := by
  unfold runMatch Passes NoWorse inputs outputs
  simp only [Py.bind_eq_ok, Prod.exists, assert_ok, width_ok, checks_ok, inputs, List.mem_append]
  constructor
  · rintro ⟨f, b, he, -, h1, -, h2, -, ⟨h3, h4⟩, -, ⟨h5, h6⟩, -, h7, -, h8, h⟩
    refine ⟨f, b, ⟨he, h1, h2, h3, h5, fun a ha => ha.elim (h4 a) (h6 a), ?_⟩, (Except.ok.inj h).symm⟩
    split at h7 <;> simp_all
  · rintro ⟨f, b, ⟨he, h1, h2, h3, h5, h6, h7⟩, rfl⟩
    refine ⟨f, b, he, (), h1, (), h2, (), ⟨h3, fun a ha => h6 a (.inl ha)⟩, (), ⟨h5, fun a ha => h6 a (.inr ha)⟩, (), ?_, (), ?_, rfl⟩
    · split at h7 <;> simp_all
    · split at h7 <;> simp_all

/-- A run that ends without an error has found every test to pass, and the file keeps the tests and has the actions; a run that ends with an error
leaves the file. -/
theorem C171_run (file : List MatchTest) :
    ((runMatches file).1 = .ok () ↔ ∀ t ∈ file, ∃ fast best, Passes t fast best) ∧
    ((runMatches file).1 = .ok () → List.Forall₂ (fun t u => SameTask t u ∧ Passes t u.fast u.best) file (runMatches file).2) ∧
    ((runMatches file).1 ≠ .ok () → (runMatches file).2 = file) := by
  have key : ∀ l : List MatchTest, (∃ l', l.mapM runMatch = .ok l') ↔ ∀ t ∈ l, ∃ f b, Passes t f b := by
    intro l
    induction l with
    | nil => exact ⟨fun _ => by simp, fun _ => ⟨[], rfl⟩⟩
    | cons t l ih =>
      simp only [List.forall_mem_cons, ← ih]
      constructor
      · rintro ⟨l', h⟩
        have h := (mapM_ok _ _ _).1 h
        cases h with
        | cons hb hbs =>
          obtain ⟨f, b, hp, -⟩ := runMatch_ok.1 hb
          exact ⟨⟨f, b, hp⟩, _, (mapM_ok _ _ _).2 hbs⟩
      · rintro ⟨⟨f, b, hp⟩, l', h⟩
        exact ⟨_, (mapM_ok _ _ _).2 (.cons (runMatch_ok.2 ⟨f, b, hp, rfl⟩) ((mapM_ok _ _ _).1 h))⟩
  unfold runMatches
  cases h : file.mapM runMatch with
  | error e =>
    refine ⟨⟨fun hh => (by cases hh), fun hh => ?_⟩, fun hh => (by cases hh), fun _ => rfl⟩
    obtain ⟨l', hl⟩ := (key file).2 hh
    rw [h] at hl
    cases hl
  | ok l =>
    refine ⟨⟨fun _ => (key file).1 ⟨l, h⟩, fun _ => rfl⟩, fun _ => ?_, fun hh => absurd rfl hh⟩
    refine ((mapM_ok _ _ _).1 h).imp fun t u htu => ?_
    obtain ⟨f, b, hp, rfl⟩ := runMatch_ok.1 htu
    exact ⟨⟨rfl, rfl, rfl⟩, hp⟩

/-- Running the benchmark again changes nothing. -/
theorem C171_again (file : List MatchTest) : runMatches (runMatches file).2 = runMatches file := by
  unfold runMatches
  cases h : file.mapM runMatch with
  | error e => simp only [h]
  | ok l =>
    have : l.mapM runMatch = .ok l := by
      rw [mapM_ok] at h ⊢
      induction h with
      | nil => exact .nil
      | cons hb _ ih =>
        refine .cons ?_ ih
        obtain ⟨f, b, hp, rfl⟩ := runMatch_ok.1 hb
        exact runMatch_ok.2 ⟨f, b, hp, rfl⟩
    simp only [this]

/-! ### Which checks can fail -/

theorem encode_y {o : FileOrder} {e : EncOrder} (h : o.encode = .ok e) : e.y = o.liquidity := by
  unfold FileOrder.encode encodeOrder at h
  simp only [Py.bind_eq_ok] at h
  obtain ⟨L, -, H, -, M, -, h⟩ := h
  unfold encodeOrderFixed at h
  split at h
  · cases h
  simp only [Py.bind_eq_ok, Py.pure_eq_ok] at h
  obtain ⟨z, -, rfl⟩ := h
  rfl

theorem execute_encode {o : FileOrder} {e : EncOrder} (h : o.encode = .ok e) (s : Bool) (x : ℤ) :
    execute s x o.liquidity o.lowest o.highest o.marginal = .ok (if s then tradeBySourceAmount x e else tradeByTargetAmount x e) := by
  unfold execute
  unfold FileOrder.encode at h
  rw [h]
  rfl

theorem forall₂_get {α β : Type} {R : α → β → Prop} {l : List α} {m : List β} (h : List.Forall₂ R l m) {i : ℕ} {b : β} (hb : m[i]? = some b) :
    ∃ a, l[i]? = some a ∧ R a b := by
  induction h generalizing i with
  | nil => simp at hb
  | cons h1 _ ih =>
    cases i with
    | zero =>
      simp only [List.getElem?_cons_zero, Option.some.injEq] at hb
      subst hb
      exact ⟨_, rfl, h1⟩
    | succ i =>
      simp only [List.getElem?_cons_succ] at hb ⊢
      exact ih hb

theorem executable {t : MatchTest} {enc : List EncOrder} (he : List.Forall₂ (fun a b => a.encode = .ok b) t.orders enc) {a : Action} :
    Executable t a ↔ ∃ o, enc[a.id]? = some o ∧ (if t.bySource then a.output else a.input) ≤ o.y ∧
      a.output = if t.bySource then tradeBySourceAmount a.input o else tradeByTargetAmount a.input o := by
  constructor
  · rintro ⟨o, ho, h1, h2⟩
    obtain ⟨e, h3, h4⟩ := forall₂_get he.flip ho
    refine ⟨e, h3, encode_y h4 ▸ h1, ?_⟩
    rw [execute_encode h4] at h2
    exact (Except.ok.inj h2).symm
  · rintro ⟨e, h3, h1, h2⟩
    obtain ⟨o, ho, h4⟩ := forall₂_get he h3
    refine ⟨o, ho, encode_y h4 ▸ h1, ?_⟩
    rw [execute_encode h4, ← h2]

theorem enc_nonneg {t : MatchTest} {enc : List EncOrder} (he : List.Forall₂ (fun a b => FileOrder.encode a = .ok b) t.orders enc) :
    ∀ o ∈ enc, 0 ≤ o.y := by
  intro o ho
  obtain ⟨i, hi⟩ := List.mem_iff_getElem?.1 ho
  obtain ⟨a, -, h⟩ := forall₂_get he hi
  rw [encode_y h]
  positivity

theorem execute_parts {t : MatchTest} {f b : List Action} (h : executeMatch t.bySource t.amount t.orders = .ok (f, b)) :
    ∃ enc, List.Forall₂ (fun a b => FileOrder.encode a = .ok b) t.orders enc ∧
      (if t.bySource then matchFastBySource t.amount enc defaultFilter else matchFastByTarget t.amount enc defaultFilter) = .ok f ∧
      (if t.bySource then matchBestBySource t.amount enc defaultFilter else matchBestByTarget t.amount enc defaultFilter) = .ok b := by
  unfold executeMatch at h
  simp only [Py.bind_eq_ok] at h
  obtain ⟨enc, he, f', hf, b', hb, h⟩ := h
  cases h
  exact ⟨enc, (mapM_ok _ _ _).1 he, hf, hb⟩

theorem best_nonempty {t : MatchTest} {enc : List EncOrder} {b : List Action}
    (h : (if t.bySource then matchBestBySource t.amount enc defaultFilter else matchBestByTarget t.amount enc defaultFilter) = .ok b) : enc ≠ [] := by
  rintro rfl
  have := C161_empty_violated t.amount defaultFilter
  split at h
  · rw [this.2.2.2] at h; cases h
  · rw [this.2.2.1] at h; cases h

/-- By target the checks of the single actions never fail, nor does the total of the fast ones: a test passes exactly if both matches have an action,
the best one takes no more than the amount and is no worse than the fast one. -/
theorem C171_target {t : MatchTest} (hs : t.bySource = false) (ha : 0 ≤ t.amount) (fast best : List Action) :
    Passes t fast best ↔ executeMatch false t.amount t.orders = .ok (fast, best) ∧ fast ≠ [] ∧ best ≠ [] ∧ inputs best ≤ t.amount ∧
      NoWorse false fast best := by
  unfold Passes
  rw [hs]
  refine ⟨fun ⟨h1, h2, h3, _, h5, _, h7⟩ => ⟨h1, h2, h3, h5, h7⟩, fun ⟨h1, h2, h3, h5, h7⟩ => ⟨h1, h2, h3, ?_, h5, ?_, h7⟩⟩
  · obtain ⟨enc, -, hf, -⟩ := execute_parts (hs ▸ h1)
    rw [hs] at hf
    exact C08_total_input_le _ ha _ _ _ _ _ hf
  · obtain ⟨enc, he, hf, hb⟩ := execute_parts (hs ▸ h1)
    have hne := best_nonempty hb
    rw [hs] at hf hb
    have hq := sortedQuotes_quotesFor t.amount enc rateByTargetAmount sortByMaxRate
    intro a h
    rw [executable he, hs]
    rcases List.mem_append.1 h with h | h
    · obtain ⟨o, g1, g2⟩ := C09_target _ _ _ _ _ hq hf a h
      obtain ⟨o', g3, g4⟩ := C58_target _ _ _ _ _ hq hf a h
      rw [g1] at g3
      cases g3
      exact ⟨o, g1, g2, g4⟩
    · exact C59_target _ _ _ _ _ hne hq hb a h

/-- By source the checks of the single actions of the best match never fail, nor do those of the totals: a test passes exactly if both matches have an
action, no fast action pays so much that its order quotes more than it holds, and the best match is no worse than the fast one. -/
theorem C171_source {t : MatchTest} (hs : t.bySource = true) (ha : 0 ≤ t.amount) (fast best : List Action) :
    Passes t fast best ↔ executeMatch true t.amount t.orders = .ok (fast, best) ∧ fast ≠ [] ∧ best ≠ [] ∧
      (∀ a ∈ fast, ∃ o, t.orders[a.id]? = some o ∧ ∃ q, execute true a.input o.liquidity o.lowest o.highest o.marginal = .ok q ∧ q ≤ o.liquidity) ∧
      NoWorse true fast best := by
  unfold Passes
  rw [hs]
  refine ⟨fun ⟨h1, h2, h3, _, _, h6, h7⟩ => ⟨h1, h2, h3, ?_, h7⟩, fun ⟨h1, h2, h3, h6, h7⟩ => ?_⟩
  · intro a h
    obtain ⟨o, g1, g2, g3⟩ := h6 a (List.mem_append_left _ h)
    rw [hs] at g2 g3
    exact ⟨o, g1, _, g3, g2⟩
  · obtain ⟨enc, he, hf, hb⟩ := execute_parts (hs ▸ h1)
    have hne := best_nonempty hb
    rw [hs] at hf hb
    have hfa : inputs fast ≤ t.amount := C08_total_input_le _ ha _ _ _ _ _ hf
    refine ⟨h1, h2, h3, hfa, (show inputs best ≤ inputs fast from h7.1).trans hfa, ?_, h7⟩
    have hq := sortedQuotes_quotesFor t.amount enc rateBySourceAmount sortByMinRate
    have hy := enc_nonneg he
    intro a h
    rw [executable he, hs]
    rcases List.mem_append.1 h with h | h
    · obtain ⟨o, g1, g2⟩ := C09_source _ _ _ _ _ hy hq hf a h
      obtain ⟨o', g3, g4⟩ := C58_source_partial _ _ _ _ _ hy hq hf a h
      rw [g1] at g3
      cases g3
      refine ⟨o, g1, g2, g4 ?_⟩
      obtain ⟨fo, g5, q, g6, g7⟩ := h6 a h
      obtain ⟨fo', g8, g9⟩ := forall₂_get he g1
      rw [g5] at g8
      cases g8
      rw [execute_encode g9] at g6
      cases g6
      rw [encode_y g9]
      exact g7
    · exact C59_source _ _ _ _ _ hy hne hq hb a h

/-! ### One order -/

/-- A test with one order by target passes whenever the order's quote is for positive amounts. -/
theorem C171_single_target {t : MatchTest} (hs : t.bySource = false) (ha : 0 ≤ t.amount) {fo : FileOrder} {o : EncOrder} (ho : t.orders = [fo])
    (he : fo.encode = .ok o) (hp : 0 < (rateByTargetAmount t.amount o).input) (hq : 0 < (rateByTargetAmount t.amount o).output) :
    Passes t [⟨0, (rateByTargetAmount t.amount o).input, (rateByTargetAmount t.amount o).output⟩]
      [⟨0, (rateByTargetAmount t.amount o).input, (rateByTargetAmount t.amount o).output⟩] := by
  rw [C171_target hs ha]
  have hf : defaultFilter (rateByTargetAmount t.amount o) = true := by simp [defaultFilter, hp, hq]
  have := C161_single_target t.amount o defaultFilter
  dsimp only at this
  rw [if_pos hf] at this
  refine ⟨?_, by simp, by simp, ?_, le_rfl, le_rfl⟩
  · unfold executeMatch
    rw [ho]
    simp only [List.mapM_cons, List.mapM_nil, he, Py.ok_bind, pure, Except.pure, Bool.false_eq_true, if_false, this.1, this.2]
  · simpa [inputs] using target_capped o t.amount

/-- And by source, for an order in the unscaled regime. -/
theorem C171_single_source {t : MatchTest} (hs : t.bySource = true) (ha : 0 ≤ t.amount) {fo : FileOrder} {o : EncOrder} (ho : t.orders = [fo])
    (he : fo.encode = .ok o) (hz : 0 < o.z) (hA : wordValue o.A ≠ 0) (hB : wordValue o.B ≠ 0) (hfit : TargetFits o.y o)
    (hp : 0 < (rateBySourceAmount t.amount o).input) (hq : 0 < (rateBySourceAmount t.amount o).output) :
    Passes t [⟨0, (rateBySourceAmount t.amount o).input, (rateBySourceAmount t.amount o).output⟩]
      [⟨0, (rateBySourceAmount t.amount o).input, (rateBySourceAmount t.amount o).output⟩] := by
  rw [C171_source hs ha]
  have hy : 0 ≤ o.y := by rw [encode_y he]; positivity
  have hf : defaultFilter (rateBySourceAmount t.amount o) = true := by simp [defaultFilter, hp, hq]
  have := C161_single_source t.amount o defaultFilter hy hz hA hB hfit
  dsimp only at this
  rw [if_pos hf] at this
  refine ⟨?_, by simp, by simp, ?_, le_rfl, le_rfl⟩
  · unfold executeMatch
    rw [ho]
    simp only [List.mapM_cons, List.mapM_nil, he, Py.ok_bind, pure, Except.pure, if_true, this.1, this.2]
  · intro a h
    simp only [List.mem_singleton] at h
    subst h
    refine ⟨fo, by rw [ho]; rfl, _, execute_encode he _ _, ?_⟩
    have := rateBySource_output o hy t.amount
    simp only [if_true]
    rw [← this.2, ← encode_y he]
    exact this.1

/-! ### Tests that stop the benchmark -/

theorem nothing (t : MatchTest) (h : t.amount = 0) {f b : List Action} (he : executeMatch t.bySource t.amount t.orders = .ok (f, b)) : f = [] := by
  obtain ⟨enc, -, hf, -⟩ := execute_parts he
  have key : ∀ quotes trade, matchFast t.amount enc quotes defaultFilter trade = .ok f → f = [] := by
    intro quotes trade hm
    have h1 := C08_total_input_le _ h.ge _ _ _ _ _ hm
    have h2 := C08_filtered _ _ _ _ _ _ hm
    cases f with
    | nil => rfl
    | cons a l =>
      have h3 : ∀ x ∈ (a :: l).map Action.input, 0 < x := by
        intro x hx
        obtain ⟨c, hc, rfl⟩ := List.mem_map.1 hx
        have := h2 c hc
        simp only [defaultFilter, Bool.and_eq_true, decide_eq_true_eq] at this
        exact this.1
      have := List.sum_pos _ h3 (by simp)
      omega
  split at hf
  · exact key _ _ hf
  · exact key _ _ hf

/-- C171: a test that matches nothing, such as one of the amount 0, stops the benchmark with an error although nothing is the right answer. -/
theorem C171_nothing_violated (t : MatchTest) :
    (t.amount = 0 → ∃ e, runMatch t = .error e) ∧
    (∀ f b, executeMatch t.bySource t.amount t.orders = .ok (f, b) → f = [] ∨ b = [] → runMatch t = .error .value) := by
  constructor
  · intro h
    cases hr : runMatch t with
    | error e => exact ⟨e, rfl⟩
    | ok u =>
      obtain ⟨f, b, hp, -⟩ := runMatch_ok.1 hr
      exact absurd (nothing t h hp.1) hp.2.1
  · intro f b he h
    unfold runMatch
    rw [he]
    simp only [Py.ok_bind, widthOf]
    by_cases hf : f = []
    · subst hf; rfl
    · rcases h with h | h
      · exact absurd h hf
      · subst h
        rw [if_neg hf]
        rfl

/-- An order of a thousand units between the square root rates 5/8 and 7/8. -/
def twin : FileOrder := ⟨1000, (25, 64), (49, 64), (49, 64)⟩

/-- An order at one rate, 1/4, and one at the rate 2^48. -/
def slow : FileOrder := ⟨1000, (1, 4), (1, 4), (1, 4)⟩
def quick : FileOrder := ⟨2 ^ 50, (2 ^ 48, 1), (2 ^ 48, 1), (2 ^ 48, 1)⟩

theorem twin_encode : twin.encode = .ok ⟨1000, 1000, encodeFloat (2 ^ 46), encodeFloat (5 * 2 ^ 45)⟩ := by
  have h1 : Nat.sqrt (25 * 2 ^ 96 / 64) = 5 * 2 ^ 45 := Nat.sqrt_eq' (5 * 2 ^ 45)
  have h2 : Nat.sqrt (49 * 2 ^ 96 / 64) = 7 * 2 ^ 45 := Nat.sqrt_eq' (7 * 2 ^ 45)
  unfold FileOrder.encode encodeOrder encodeRate twin
  simp only [h1, h2]
  decide +kernel

theorem slow_encode : slow.encode = .ok ⟨1000, 1000, encodeFloat 0, encodeFloat (2 ^ 47)⟩ := by
  have h1 : Nat.sqrt (1 * 2 ^ 96 / 4) = 2 ^ 47 := Nat.sqrt_eq' (2 ^ 47)
  unfold FileOrder.encode encodeOrder encodeRate slow
  simp only [h1]
  decide +kernel

theorem quick_encode : quick.encode = .ok ⟨2 ^ 50, 2 ^ 50, encodeFloat 0, encodeFloat (2 ^ 72)⟩ := by
  have h1 : Nat.sqrt (2 ^ 48 * 2 ^ 96 / 1) = 2 ^ 72 := Nat.sqrt_eq' (2 ^ 72)
  unfold FileOrder.encode encodeOrder encodeRate quick
  simp only [h1]
  decide +kernel

/-- C171: two units bought from two equal orders: the best match pays more than the fast one, so the benchmark fails. -/
theorem C171_rounding_violated (f b : List Action) : executeMatch false 2 [twin, twin] = .ok ([⟨0, 2, 3⟩], [⟨0, 1, 2⟩, ⟨1, 1, 2⟩]) ∧
    ∀ u, runMatch ⟨false, 2, [twin, twin], f, b⟩ ≠ .ok u := by
  have he : executeMatch false 2 [twin, twin] = .ok ([⟨0, 2, 3⟩], [⟨0, 1, 2⟩, ⟨1, 1, 2⟩]) := by
    unfold executeMatch
    simp only [List.mapM_cons, List.mapM_nil, twin_encode, Py.ok_bind, pure, Except.pure, Bool.false_eq_true, if_false]
    have := C161_rounding_violated
    unfold twinBook at this
    rw [this.1, this.2]
    rfl
  refine ⟨he, fun u hu => ?_⟩
  obtain ⟨f', b', hp, -⟩ := runMatch_ok.1 hu
  have h1 := hp.1
  dsimp only at h1
  rw [he] at h1
  cases h1
  have := hp.2.2.2.2.2.2.2
  simp [outputs] at this

/-- C171: the fast match of a large payment charges the second order more than it takes for what it gives, and the benchmark finds this. -/
theorem C171_charged_violated (f b : List Action) :
    executeMatch true (2 ^ 80 + 1000) [slow, quick] = .ok ([⟨0, 4000, 1000⟩, ⟨1, 2 ^ 80 - 3000, 2 ^ 50⟩], [⟨0, 4000, 1000⟩, ⟨1, 4, 2 ^ 50⟩]) ∧
    ∀ u, runMatch ⟨true, 2 ^ 80 + 1000, [slow, quick], f, b⟩ ≠ .ok u := by
  have he : executeMatch true (2 ^ 80 + 1000) [slow, quick] =
      .ok ([⟨0, 4000, 1000⟩, ⟨1, 2 ^ 80 - 3000, 2 ^ 50⟩], [⟨0, 4000, 1000⟩, ⟨1, 4, 2 ^ 50⟩]) := by
    unfold executeMatch
    simp only [List.mapM_cons, List.mapM_nil, slow_encode, quick_encode, Py.ok_bind, pure, Except.pure, if_true]
    have h : sortedQuotes (2 ^ 80 + 1000) largeBook rateBySourceAmount sortByMinRate = [⟨0, 4000, 1000⟩, ⟨1, 2 ^ 80 + 1000, 0⟩] := by
      have h : quotesOf (2 ^ 80 + 1000) largeBook rateBySourceAmount = [⟨0, 4000, 1000⟩, ⟨1, 2 ^ 80 + 1000, 0⟩] := by decide +kernel
      unfold sortedQuotes
      rw [h, List.mergeSort_of_pairwise]
      simp [sortByMinRate]
    have h1 : matchFastBySource (2 ^ 80 + 1000) largeBook defaultFilter = .ok [⟨0, 4000, 1000⟩, ⟨1, 2 ^ 80 - 3000, 2 ^ 50⟩] := by
      unfold matchFastBySource; rw [h]; decide +kernel
    have h2 : matchBestBySource (2 ^ 80 + 1000) largeBook defaultFilter = .ok [⟨0, 4000, 1000⟩, ⟨1, 4, 2 ^ 50⟩] := by
      unfold matchBestBySource; rw [h]; decide +kernel
    unfold largeBook at h1 h2
    rw [h1, h2]
    rfl
  refine ⟨he, fun u hu => ?_⟩
  obtain ⟨f', b', hp, -⟩ := runMatch_ok.1 hu
  have h1 := hp.1
  dsimp only at h1
  rw [he] at h1
  cases h1
  obtain ⟨o, h2, h3, h4⟩ := hp.2.2.2.2.2.1 ⟨1, 2 ^ 80 - 3000, 2 ^ 50⟩ (by simp)
  simp only [List.getElem?_cons_succ, List.getElem?_cons_zero, Option.some.injEq] at h2
  subst h2
  rw [execute_encode quick_encode] at h4
  rw [if_pos rfl] at h4
  exact absurd (Except.ok.inj h4) (by dsimp only; decide +kernel)

/-- Tests that pass: 700 units bought from, and 700 units paid to, one of the orders. -/
example : Passes ⟨false, 700, [twin], [], []⟩ [⟨0, 700, 1143⟩] [⟨0, 700, 1143⟩] ∧
    Passes ⟨true, 700, [twin], [], []⟩ [⟨0, 700, 464⟩] [⟨0, 700, 464⟩] := by
  constructor
  · have e : rateByTargetAmount 700 ⟨1000, 1000, encodeFloat (2 ^ 46), encodeFloat (5 * 2 ^ 45)⟩ = ⟨700, 1143⟩ := by decide +kernel
    have := C171_single_target (t := ⟨false, 700, [twin], [], []⟩) rfl (by norm_num) rfl twin_encode
      (by dsimp only; rw [e]; norm_num) (by dsimp only; rw [e]; norm_num)
    dsimp only at this
    rwa [e] at this
  · have e : rateBySourceAmount 700 ⟨1000, 1000, encodeFloat (2 ^ 46), encodeFloat (5 * 2 ^ 45)⟩ = ⟨700, 464⟩ := by decide +kernel
    have := C171_single_source (t := ⟨true, 700, [twin], [], []⟩) rfl (by norm_num) rfl twin_encode (by norm_num)
      (by decide +kernel) (by decide +kernel) (by unfold TargetFits; decide +kernel)
      (by dsimp only; rw [e]; norm_num) (by dsimp only; rw [e]; norm_num)
    dsimp only at this
    rwa [e] at this

end Carbon.Prop.BenchMatch
