import Verif.Prop.CpcContainer

/-!
# Concentration (C75), filters of pairs (C76), token table (C77), and where the container fails
-/

set_option linter.unusedSectionVars false

namespace Carbon

open CarbonPair (pyDiv)
open UICurve (pyDiv_ok)

/-! ## C75: the Herfindahl index -/

namespace AF

section
variable {K : Type} [Field K] [LinearOrder K] [IsStrictOrderedRing K]

theorem sq_sum_le (l : List K) : l.sum ^ 2 ≤ l.length * (l.map fun v => v ^ 2).sum := by
  induction l with
  | nil => simp
  | cons a l ih =>
    rw [List.map_cons, List.sum_cons, List.sum_cons, List.length_cons]
    push_cast
    set S := l.sum
    set Q := (l.map fun v => v ^ 2).sum
    set n := (l.length : K)
    have hn : 0 ≤ n := Nat.cast_nonneg _
    by_cases h0 : n = 0
    · have hl : l = [] := by
        have : l.length = 0 := Nat.cast_eq_zero.mp h0
        exact List.length_eq_zero_iff.mp this
      have hS : S = 0 := by show l.sum = 0; rw [hl]; rfl
      have hQ : Q = 0 := by show (l.map _).sum = 0; rw [hl]; rfl
      rw [h0, hS, hQ]; nlinarith
    · have hn' : 0 < n := lt_of_le_of_ne hn (Ne.symm h0)
      -- 2aS ≤ n a² + Q since (na - S)² ≥ 0 and S² ≤ nQ
      have h1 : 2 * a * S ≤ n * a ^ 2 + Q := by
        by_contra hc
        have hc := not_le.mp hc
        have := mul_lt_mul_of_pos_left hc hn'
        nlinarith [sq_nonneg (n * a - S)]
      nlinarith

theorem sum_sq_le (l : List K) (h : ∀ v ∈ l, 0 ≤ v) : (l.map fun v => v ^ 2).sum ≤ l.sum ^ 2 ∧ 0 ≤ l.sum := by
  induction l with
  | nil => simp
  | cons a l ih =>
    obtain ⟨h1, h2⟩ := ih fun v hv => h v (by simp [hv])
    have ha := h a (by simp)
    rw [List.map_cons, List.sum_cons, List.sum_cons]
    exact ⟨by nlinarith [mul_nonneg ha h2], by linarith⟩

theorem sum_sq_eq (l : List K) (h : ∀ v ∈ l, 0 ≤ v) (hs : l.sum ≠ 0) :
    (l.map fun v => v ^ 2).sum = l.sum ^ 2 ↔ (l.filter fun v => decide (v ≠ 0)).length = 1 := by
  have hz : ∀ l : List K, (∀ v ∈ l, 0 ≤ v) → l.sum = 0 → (l.filter fun v => decide (v ≠ 0)) = [] := by
    intro l
    induction l with
    | nil => simp
    | cons a l ih =>
      intro h hs
      have ha := h a (by simp)
      have hl := (sum_sq_le l fun v hv => h v (by simp [hv])).2
      rw [List.sum_cons] at hs
      have ha0 : a = 0 := by linarith
      rw [List.filter_cons_of_neg (by simp [ha0])]
      exact ih (fun v hv => h v (by simp [hv])) (by linarith)
  have hz' : ∀ l : List K, (l.filter fun v => decide (v ≠ 0)) = [] → l.sum = 0 ∧ (l.map fun v => v ^ 2).sum = 0 := by
    intro l hl
    rw [List.filter_eq_nil_iff] at hl
    have : ∀ v ∈ l, v = 0 := by intro v hv; simpa using hl v hv
    constructor
    · exact List.sum_eq_zero this
    · apply List.sum_eq_zero
      intro x hx
      obtain ⟨v, hv, rfl⟩ := List.mem_map.mp hx
      rw [this v hv]; simp
  induction l with
  | nil => simp at hs
  | cons a l ih =>
    have ha := h a (by simp)
    have hl := sum_sq_le l fun v hv => h v (by simp [hv])
    rw [List.map_cons, List.sum_cons, List.sum_cons]
    by_cases ha0 : a = 0
    · rw [List.filter_cons_of_neg (by simp [ha0])]
      rw [List.sum_cons, ha0, zero_add] at hs
      have hi := ih (fun v hv => h v (by simp [hv])) hs
      refine Iff.trans ?_ hi
      rw [ha0]
      simp
    · rw [List.filter_cons_of_pos (by simpa using ha0), List.length_cons]
      have ha' : 0 < a := lt_of_le_of_ne ha (Ne.symm ha0)
      constructor
      · intro e
        have h2 : 2 * a * l.sum ≤ 0 := by nlinarith
        have h3 : l.sum = 0 := by
          by_contra hne
          have : 0 < l.sum := lt_of_le_of_ne hl.2 (Ne.symm hne)
          have := mul_pos ha' this
          linarith
        rw [hz l (fun v hv => h v (by simp [hv])) h3]; rfl
      · intro e
        have hnil : (l.filter fun v => decide (v ≠ 0)) = [] := List.length_eq_zero_iff.mp (by omega)
        obtain ⟨h1, h2⟩ := hz' l hnil
        rw [h1, h2, add_zero, add_zero]

/-- **C75** For amounts that are not negative and not all zero the index lies between one over their number and one, it is one exactly
if a single amount is not zero, it does not change if all amounts are scaled, and the number of effective items is between one
and their number. If the amounts add to zero both raise. -/
theorem C75_herfindahl (l : List K) (h : ∀ v ∈ l, 0 ≤ v) :
    (l.sum ≠ 0 → ∃ m, herfindahl l = .ok m ∧ 1 / (l.length : K) ≤ m ∧ m ≤ 1 ∧
      (m = 1 ↔ (l.filter fun v => decide (v ≠ 0)).length = 1) ∧
      (∀ a : K, a ≠ 0 → herfindahl (l.map fun v => a * v) = .ok m) ∧
      herfindahlN l = .ok (1 / m) ∧ 1 ≤ 1 / m ∧ 1 / m ≤ l.length) ∧
    (l.sum = 0 → herfindahl l = .error .zeroDiv ∧ herfindahlN l = .error .zeroDiv) := by
  constructor
  · intro hs
    obtain ⟨h1, h2⟩ := sum_sq_le l h
    have h3 := sq_sum_le l
    have hS : 0 < l.sum ^ 2 := by positivity
    have hlen : 0 < (l.length : K) := by
      have : l ≠ [] := by rintro rfl; exact hs rfl
      have : 0 < l.length := List.length_pos_iff.mpr this
      exact_mod_cast this
    have hQ : 0 < (l.map fun v => v ^ 2).sum := by
      by_contra hc
      have hc := not_lt.mp hc
      nlinarith
    have hh : herfindahl l = .ok ((l.map fun v => v ^ 2).sum / l.sum ^ 2) := by
      unfold herfindahl; rw [pyDiv_ok hS.ne']
    have hlo : 1 / (l.length : K) ≤ (l.map fun v => v ^ 2).sum / l.sum ^ 2 := by
      rw [div_le_div_iff₀ hlen hS]; linarith
    have hhi : (l.map fun v => v ^ 2).sum / l.sum ^ 2 ≤ 1 := by rw [div_le_one hS]; exact h1
    have hm : 0 < (l.map fun v => v ^ 2).sum / l.sum ^ 2 := div_pos hQ hS
    refine ⟨_, hh, hlo, hhi, ?_, ?_, ?_, ?_, ?_⟩
    · rw [div_eq_one_iff_eq hS.ne']
      exact sum_sq_eq l h hs
    · intro a ha
      have e1 : (l.map fun v => a * v).sum = a * l.sum := by
        rw [List.sum_map_mul_left (f := fun v => v), List.map_id']
      have e2 : ((l.map fun v => a * v).map fun v => v ^ 2).sum = a ^ 2 * (l.map fun v => v ^ 2).sum := by
        rw [List.map_map, ← List.sum_map_mul_left]
        congr 1
        apply List.map_congr_left
        intro v _
        simp only [Function.comp_apply]; ring
      unfold herfindahl
      rw [e1, e2, pyDiv_ok (pow_ne_zero 2 (mul_ne_zero ha hs)), mul_pow, mul_div_mul_left _ _ (pow_ne_zero 2 ha)]
    · unfold herfindahlN
      rw [hh, Py.ok_bind, pyDiv_ok hm.ne']
    · exact (one_le_div hm).mpr hhi
    · rw [one_div_le hm hlen]; exact hlo
  · intro hs
    have : herfindahl l = .error .zeroDiv := by
      unfold herfindahl CarbonPair.pyDiv
      rw [hs, if_pos (by simp)]
    unfold herfindahlN
    rw [this]
    exact ⟨rfl, rfl⟩

example : herfindahl [3, 1, (0 : ℚ)] = .ok (5 / 8) ∧ herfindahlN [3, 1, (0 : ℚ)] = .ok (8 / 5) ∧
    herfindahl [0, 7, (0 : ℚ)] = .ok 1 := by decide +kernel

end

end AF

namespace CC

/-! ## C76: filtering pairs by conditions -/

/-- The conditions there are. -/
inductive Cond where
  | bothin | contains | onein | notin | tknbin | tknbnotin | tknqin | tknqnotin
  deriving DecidableEq

/-- Their names. -/
def Cond.name : Cond → Str
  | .bothin => "bothin".toList
  | .contains => "contains".toList
  | .onein => "onein".toList
  | .notin => "notin".toList
  | .tknbin => "tknbin".toList
  | .tknbnotin => "tknbnotin".toList
  | .tknqin => "tknqin".toList
  | .tknqnotin => "tknqnotin".toList

/-- The meaning of the conditions as documented, for a pair of tokens `b`, `q` and a list of tokens. -/
def Satisfies (toks : List Str) (b q : Str) : Cond → Prop
  | .bothin => b ∈ toks ∧ q ∈ toks
  | .contains => b ∈ toks ∨ q ∈ toks
  | .onein => b ∈ toks ∨ q ∈ toks
  | .notin => ¬ (b ∈ toks ∨ q ∈ toks)
  | .tknbin => b ∈ toks
  | .tknbnotin => b ∉ toks
  | .tknqin => q ∈ toks
  | .tknqnotin => q ∉ toks

/-- A condition may carry a differentiator, to be given more than once: `onein_1`. -/
def IsCond (name : Str) (cond : Cond) : Prop := name = cond.name ∨ ∃ d, name = cond.name ++ '_' :: d

theorem cond_name (cond : Cond) : '_' ∉ cond.name := by cases cond <;> decide +kernel

theorem before_eq {name : Str} {cond : Cond} (h : IsCond name cond) : beforeChar '_' name = cond.name := by
  have hc := cond_name cond
  have hx : ∀ s : Str, '_' ∉ s → ∀ t : Str, (t = [] ∨ ∃ u, t = '_' :: u) → beforeChar '_' (s ++ t) = s := by
    intro s
    induction s with
    | nil => rintro _ t (rfl | ⟨u, rfl⟩) <;> rfl
    | cons a s ih =>
      intro hs t ht
      unfold beforeChar
      rw [List.cons_append, List.takeWhile_cons_of_pos (by
        have : a ≠ '_' := fun e => hs (by simp [e])
        simpa using this)]
      congr 1
      exact ih (fun hm => hs (by simp [hm])) t ht
  rcases h with rfl | ⟨d, rfl⟩
  · simpa using hx _ hc [] (Or.inl rfl)
  · exact hx _ hc _ (Or.inr ⟨d, rfl⟩)

theorem condTest_spec {name : Str} {cond : Cond} (h : IsCond name cond) (toks : List Str) :
    ∃ f, condTest name toks = .ok f ∧ ∀ b q, f ⟨b, q⟩ = true ↔ Satisfies toks b q cond := by
  have hb := before_eq h
  unfold condTest
  dsimp only
  rw [hb]
  cases cond with
  | bothin =>
    refine ⟨_, if_pos rfl, fun b q => ?_⟩
    simp [Satisfies]
  | contains =>
    refine ⟨_, by rw [if_neg (by decide +kernel), if_pos (by decide +kernel)], fun b q => ?_⟩
    simp [Satisfies]
  | onein =>
    refine ⟨_, by rw [if_neg (by decide +kernel), if_pos (by decide +kernel)], fun b q => ?_⟩
    simp [Satisfies]
  | notin =>
    refine ⟨_, by rw [if_neg (by decide +kernel), if_neg (by decide +kernel), if_pos (by decide +kernel)], fun b q => ?_⟩
    simp [Satisfies]
  | tknbin =>
    refine ⟨_, by rw [if_neg (by decide +kernel), if_neg (by decide +kernel), if_neg (by decide +kernel),
      if_pos (by decide +kernel)], fun b q => ?_⟩
    simp [Satisfies]
  | tknbnotin =>
    refine ⟨_, by rw [if_neg (by decide +kernel), if_neg (by decide +kernel), if_neg (by decide +kernel),
      if_neg (by decide +kernel), if_pos (by decide +kernel)], fun b q => ?_⟩
    simp [Satisfies]
  | tknqin =>
    refine ⟨_, by rw [if_neg (by decide +kernel), if_neg (by decide +kernel), if_neg (by decide +kernel),
      if_neg (by decide +kernel), if_neg (by decide +kernel), if_pos (by decide +kernel)], fun b q => ?_⟩
    simp [Satisfies]
  | tknqnotin =>
    refine ⟨_, by rw [if_neg (by decide +kernel), if_neg (by decide +kernel), if_neg (by decide +kernel),
      if_neg (by decide +kernel), if_neg (by decide +kernel), if_neg (by decide +kernel), if_pos (by decide +kernel)],
      fun b q => ?_⟩
    simp [Satisfies]

/-- Names of pairs of tokens. -/
def names (ps : List (Str × Str)) : List Str := ps.map fun t => t.1 ++ '/' :: t.2

theorem wrapPairs_ok {ps : List (Str × Str)} (h : ∀ t ∈ ps, '/' ∉ t.1 ∧ '/' ∉ t.2) :
    wrapPairs (names ps) = .ok (ps.map fun t => ⟨t.1, t.2⟩) := by
  induction ps with
  | nil => rfl
  | cons t ps ih =>
    have ht := h t (by simp)
    have ih' := ih fun s hs => h s (by simp [hs])
    unfold names at ih' ⊢
    rw [List.map_cons, wrapPairs]
    unfold TPair.ofStr
    rw [CarbonPair.unpack_eq_ok.mpr ⟨rfl, ht⟩, Py.ok_bind, Py.ok_bind, ih', Py.ok_bind, List.map_cons]

/-- A condition as it is given to the filter, and what it stands for. -/
structure Given where
  name : Str
  cond : Cond
  toks : List Str
  named : IsCond name cond

theorem condResults_ok (ps : List TPair) (gs : List Given) :
    ∃ rs, condResults ps (gs.map fun g => (g.name, g.toks)) = .ok rs ∧ rs.length = gs.length ∧
      (∀ g ∈ gs, ∃ r ∈ rs, ∀ s, s ∈ r ↔ ∃ t ∈ ps, s = t.pair ∧ Satisfies g.toks t.tknb t.tknq g.cond) ∧
      (∀ r ∈ rs, ∃ g ∈ gs, ∀ s, s ∈ r ↔ ∃ t ∈ ps, s = t.pair ∧ Satisfies g.toks t.tknb t.tknq g.cond) := by
  induction gs with
  | nil => exact ⟨[], rfl, rfl, by simp, by simp⟩
  | cons g gs ih =>
    obtain ⟨rs, h1, hl, h2, h3⟩ := ih
    obtain ⟨f, hf, hsat⟩ := condTest_spec g.named g.toks
    have hr : ∀ s, s ∈ (ps.filter f).map TPair.pair ↔ ∃ t ∈ ps, s = t.pair ∧ Satisfies g.toks t.tknb t.tknq g.cond := by
      intro s
      rw [List.mem_map]
      constructor
      · rintro ⟨t, ht, rfl⟩
        rw [List.mem_filter] at ht
        exact ⟨t, ht.1, rfl, (hsat t.tknb t.tknq).mp ht.2⟩
      · rintro ⟨t, ht, rfl, hs⟩
        exact ⟨t, List.mem_filter.mpr ⟨ht, (hsat t.tknb t.tknq).mpr hs⟩, rfl⟩
    refine ⟨(ps.filter f).map TPair.pair :: rs, ?_, by simp [hl], ?_, ?_⟩
    · rw [List.map_cons, condResults, hf, Py.ok_bind, h1, Py.ok_bind]
    · intro g' hg'
      rcases List.mem_cons.mp hg' with rfl | hg'
      · exact ⟨_, by simp, hr⟩
      · obtain ⟨r, hr', h⟩ := h2 g' hg'
        exact ⟨r, by simp [hr'], h⟩
    · intro r hr'
      rcases List.mem_cons.mp hr' with rfl | hr'
      · exact ⟨g, by simp, hr⟩
      · obtain ⟨g', hg', h⟩ := h3 r hr'
        exact ⟨g', by simp [hg'], h⟩

/-- **C76** Filtering pairs of tokens by known conditions returns exactly the pairs that satisfy all of them, or with `any` at least one
of them; without conditions all pairs. A condition may be given several times with differentiators. -/
theorem C76_filter (ps : List (Str × Str)) (hps : ∀ t ∈ ps, '/' ∉ t.1 ∧ '/' ∉ t.2) (gs : List Given) :
    (∃ r, filterPairs (names ps) (gs.map fun g => (g.name, g.toks)) = .ok r ∧
      ∀ s, s ∈ r ↔ ∃ t ∈ ps, s = t.1 ++ '/' :: t.2 ∧ ∀ g ∈ gs, Satisfies g.toks t.1 t.2 g.cond) ∧
    (gs ≠ [] → ∃ r, filterPairs (names ps) (gs.map fun g => (g.name, g.toks)) "any".toList = .ok r ∧
      ∀ s, s ∈ r ↔ ∃ t ∈ ps, s = t.1 ++ '/' :: t.2 ∧ ∃ g ∈ gs, Satisfies g.toks t.1 t.2 g.cond) := by
  obtain ⟨rs, h1, hl, h2, h3⟩ := condResults_ok (ps.map fun t => (⟨t.1, t.2⟩ : TPair)) gs
  have hps' : ∀ (s : Str) (toks : List Str) (cond : Cond),
      (∃ t ∈ ps.map (fun t => (⟨t.1, t.2⟩ : TPair)), s = t.pair ∧ Satisfies toks t.tknb t.tknq cond) ↔
        ∃ t ∈ ps, s = t.1 ++ '/' :: t.2 ∧ Satisfies toks t.1 t.2 cond := by
    intro s toks cond
    constructor
    · rintro ⟨t, ht, h⟩
      obtain ⟨u, hu, rfl⟩ := List.mem_map.mp ht
      exact ⟨u, hu, h⟩
    · rintro ⟨u, hu, h⟩
      exact ⟨⟨u.1, u.2⟩, List.mem_map.mpr ⟨u, hu, rfl⟩, h⟩
  have huniq : ∀ t ∈ ps, ∀ u ∈ ps, t.1 ++ '/' :: t.2 = u.1 ++ '/' :: u.2 → t = u := by
    intro t ht u hu e
    obtain ⟨x, y⟩ := sep_inj (hps t ht).1 (hps t ht).2 e
    exact Prod.ext x y
  have hcond : ∀ g : Given, g ∈ gs → (gs.map fun g => (g.name, g.toks)) ≠ [] := by
    intro g hg hn
    rw [List.map_eq_nil_iff] at hn
    rw [hn] at hg; exact absurd hg (by simp)
  constructor
  · cases gs with
    | nil =>
      refine ⟨names ps, rfl, fun s => ?_⟩
      unfold names
      simp only [List.mem_map, List.not_mem_nil, false_imp_iff, implies_true, and_true]
      exact ⟨fun ⟨t, ht, e⟩ => ⟨t, ht, e.symm⟩, fun ⟨t, ht, e⟩ => ⟨t, ht, e.symm⟩⟩
    | cons g gs =>
      cases rs with
      | nil => simp at hl
      | cons r rs =>
        refine ⟨r.filter fun s => rs.all fun t => decide (s ∈ t), ?_, ?_⟩
        · unfold filterPairs
          rw [if_neg (hcond g (by simp)), wrapPairs_ok hps, Py.ok_bind, h1, Py.ok_bind, if_neg (by decide +kernel),
            if_pos rfl]
        · intro s
          have hall : s ∈ (r.filter fun s => rs.all fun t => decide (s ∈ t)) ↔ ∀ x ∈ r :: rs, s ∈ x := by
            rw [List.mem_filter, List.all_eq_true]
            simp
          rw [hall]
          constructor
          · intro hm
            obtain ⟨x, hx, hxs⟩ := h2 g (by simp)
            obtain ⟨t, ht, e, -⟩ := (hps' s g.toks g.cond).mp ((hxs s).mp (hm x hx))
            refine ⟨t, ht, e, fun g' hg' => ?_⟩
            obtain ⟨y, hy, hys⟩ := h2 g' hg'
            obtain ⟨u, hu, e', hsat⟩ := (hps' s g'.toks g'.cond).mp ((hys s).mp (hm y hy))
            have := huniq t ht u hu (e ▸ e')
            rw [this]; exact hsat
          · rintro ⟨t, ht, e, hsat⟩ x hx
            obtain ⟨g', hg', hxs⟩ := h3 x hx
            exact (hxs s).mpr ((hps' s g'.toks g'.cond).mpr ⟨t, ht, e, hsat g' hg'⟩)
  · intro hne
    obtain ⟨g, hg⟩ := List.exists_mem_of_ne_nil gs hne
    refine ⟨rs.flatten, ?_, ?_⟩
    · unfold filterPairs
      rw [if_neg (hcond g hg), wrapPairs_ok hps, Py.ok_bind, h1, Py.ok_bind, if_pos rfl]
    · intro s
      rw [List.mem_flatten]
      constructor
      · rintro ⟨x, hx, hs⟩
        obtain ⟨g', hg', hxs⟩ := h3 x hx
        obtain ⟨t, ht, e, hsat⟩ := (hps' s g'.toks g'.cond).mp ((hxs s).mp hs)
        exact ⟨t, ht, e, g', hg', hsat⟩
      · rintro ⟨t, ht, e, g', hg', hsat⟩
        obtain ⟨x, hx, hxs⟩ := h2 g' hg'
        exact ⟨x, hx, (hxs s).mpr ((hps' s g'.toks g'.cond).mpr ⟨t, ht, e, hsat⟩)⟩

/-- **C76** An unknown condition is refused whatever the other conditions are. -/
theorem C76_unknown (ps : List (Str × Str)) (hps : ∀ t ∈ ps, '/' ∉ t.1 ∧ '/' ∉ t.2) (cs : List (Str × List Str)) (anyall : Str)
    (h : ∃ c ∈ cs, ∀ cond : Cond, beforeChar '_' c.1 ≠ cond.name) :
    filterPairs (names ps) cs anyall = .error .value := by
  have herr : ∀ c : Str × List Str, (∀ cond : Cond, beforeChar '_' c.1 ≠ cond.name) →
      condTest c.1 c.2 = .error .value := by
    intro c e
    unfold condTest
    dsimp only
    rw [if_neg (show ¬ _ = "bothin".toList from e .bothin), if_neg (by
      rintro (h | h)
      · exact e .contains h
      · exact e .onein h), if_neg (show ¬ _ = "notin".toList from e .notin),
      if_neg (show ¬ _ = "tknbin".toList from e .tknbin), if_neg (show ¬ _ = "tknbnotin".toList from e .tknbnotin),
      if_neg (show ¬ _ = "tknqin".toList from e .tknqin), if_neg (show ¬ _ = "tknqnotin".toList from e .tknqnotin)]
  have hany : ∀ c : Str × List Str, (∃ f, condTest c.1 c.2 = .ok f) ∨ condTest c.1 c.2 = .error .value := by
    intro c
    by_cases hc : ∃ cond : Cond, beforeChar '_' c.1 = cond.name
    · left
      obtain ⟨cond, e⟩ := hc
      obtain ⟨f, hf, -⟩ := condTest_spec (cond := cond) (Or.inl rfl) c.2
      refine ⟨f, ?_⟩
      unfold condTest at hf ⊢
      rw [e]
      rw [before_eq (cond := cond) (Or.inl rfl)] at hf
      exact hf
    · right
      exact herr c fun cond e => hc ⟨cond, e⟩
  have hres : ∀ (qs : List TPair) (cs : List (Str × List Str)),
      (∃ c ∈ cs, ∀ cond : Cond, beforeChar '_' c.1 ≠ cond.name) → condResults qs cs = .error .value := by
    intro qs cs
    induction cs with
    | nil => rintro ⟨c, hc, -⟩; simp at hc
    | cons d cs ih =>
      rintro ⟨c, hc, hx⟩
      obtain ⟨n, tk⟩ := d
      rw [condResults]
      rcases List.mem_cons.mp hc with rfl | hc
      · rw [herr (n, tk) hx]; rfl
      · rcases hany (n, tk) with ⟨f, hf⟩ | he
        · rw [hf, Py.ok_bind, ih ⟨c, hc, hx⟩]; rfl
        · rw [he]; rfl
  have hne : cs ≠ [] := by
    obtain ⟨c, hc, -⟩ := h
    rintro rfl
    simp at hc
  unfold filterPairs
  rw [if_neg hne, wrapPairs_ok hps, Py.ok_bind, hres _ cs h]
  rfl

example : filterPairs (["ETH/USDC", "BTC/ETH", "LINK/USDC", "A/B"].map String.toList)
    [("tknqin".toList, ["USDC".toList]), ("notin_1".toList, ["LINK".toList]), ("notin_2".toList, ["A".toList])] =
      .ok ["ETH/USDC".toList] ∧
    filterPairs (["ETH/USDC", "BTC/ETH"].map String.toList) [("foo".toList, [])] = .error .value := by
  decide +kernel

/-! ## C77: the table of tokens -/

section
variable {K : Type} [Field K] [LinearOrder K] [PySqrt K]

theorem positions_mem {α : Type} (f : α → Bool) (l : List α) (n i : Nat) :
    i ∈ positions f l n ↔ ∃ j a, i = n + j ∧ l[j]? = some a ∧ f a = true := by
  induction l generalizing n with
  | nil => simp [positions]
  | cons a l ih =>
    have hrec : i ∈ positions f l (n + 1) ↔ ∃ j b, i = n + (j + 1) ∧ (a :: l)[j + 1]? = some b ∧ f b = true := by
      rw [ih]
      constructor
      · rintro ⟨j, b, e, h1, h2⟩; exact ⟨j, b, by omega, by simpa using h1, h2⟩
      · rintro ⟨j, b, e, h1, h2⟩; exact ⟨j, b, by omega, by simpa using h1, h2⟩
    unfold positions
    by_cases h : f a = true
    · rw [if_pos h, List.mem_cons, hrec]
      constructor
      · rintro (rfl | ⟨j, b, e, h1, h2⟩)
        · exact ⟨0, a, rfl, rfl, h⟩
        · exact ⟨j + 1, b, e, h1, h2⟩
      · rintro ⟨j, b, e, h1, h2⟩
        cases j with
        | zero => exact Or.inl e
        | succ j => exact Or.inr ⟨j, b, e, h1, h2⟩
    · rw [if_neg h, hrec]
      constructor
      · rintro ⟨j, b, e, h1, h2⟩; exact ⟨j + 1, b, e, h1, h2⟩
      · rintro ⟨j, b, e, h1, h2⟩
        cases j with
        | zero =>
          have : a = b := by simpa using h1
          rw [this] at h; exact absurd h2 h
        | succ j => exact ⟨j, b, e, h1, h2⟩

theorem positions_sorted {α : Type} (f : α → Bool) (l : List α) (n : Nat) : (positions f l n).Pairwise (· < ·) := by
  induction l generalizing n with
  | nil => simp [positions]
  | cons a l ih =>
    unfold positions
    split
    · refine List.Pairwise.cons ?_ (ih _)
      intro i hi
      obtain ⟨j, _, e, -⟩ := (positions_mem f l (n + 1) i).mp hi
      omega
    · exact ih _

/-- **C77** The token table lists for every token, in increasing order and without repetition, exactly the positions of the curves on
which it is the base token and those on which it is the quote token; so every curve is listed for exactly one token as base and
for exactly one as quote. -/
theorem C77_tokentable (cc : CC K) (t : Str) :
    (∀ i, i ∈ (cc.tokenEntry t).1 ↔ ∃ c, cc.curves[i]? = some c ∧ c.tknb = t) ∧
      (∀ i, i ∈ (cc.tokenEntry t).2 ↔ ∃ c, cc.curves[i]? = some c ∧ c.tknq = t) ∧
      (cc.tokenEntry t).1.Pairwise (· < ·) ∧ (cc.tokenEntry t).2.Pairwise (· < ·) ∧
      (t ∈ cc.tkns ↔ (cc.tokenEntry t).1 ≠ [] ∨ (cc.tokenEntry t).2 ≠ []) ∧
      (∀ i < cc.curves.length, (∃! u, i ∈ (cc.tokenEntry u).1) ∧ ∃! u, i ∈ (cc.tokenEntry u).2) := by
  have h1 : ∀ t i, i ∈ (cc.tokenEntry t).1 ↔ ∃ c, cc.curves[i]? = some c ∧ c.tknb = t := by
    intro t i
    unfold tokenEntry
    rw [positions_mem]
    constructor
    · rintro ⟨j, c, e, hj, hc⟩
      rw [Nat.zero_add] at e; subst e
      exact ⟨c, hj, by simpa using hc⟩
    · rintro ⟨c, hj, hc⟩
      exact ⟨i, c, by simp, hj, by simpa using hc⟩
  have h2 : ∀ t i, i ∈ (cc.tokenEntry t).2 ↔ ∃ c, cc.curves[i]? = some c ∧ c.tknq = t := by
    intro t i
    unfold tokenEntry
    rw [positions_mem]
    constructor
    · rintro ⟨j, c, e, hj, hc⟩
      rw [Nat.zero_add] at e; subst e
      exact ⟨c, hj, by simpa using hc⟩
    · rintro ⟨c, hj, hc⟩
      exact ⟨i, c, by simp, hj, by simpa using hc⟩
  refine ⟨h1 t, h2 t, positions_sorted _ _ _, positions_sorted _ _ _, ?_, ?_⟩
  · have mem_get : ∀ c, c ∈ cc.curves → ∃ i, cc.curves[i]? = some c := fun c hc => List.mem_iff_getElem?.mp hc
    constructor
    · intro ht
      unfold tkns at ht
      rw [List.mem_append, List.mem_map, List.mem_map] at ht
      rcases ht with ⟨c, hc, e⟩ | ⟨c, hc, e⟩
      · obtain ⟨i, hi⟩ := mem_get c hc
        left; intro hn
        have := (h1 t i).mpr ⟨c, hi, e⟩
        rw [hn] at this; simp at this
      · obtain ⟨i, hi⟩ := mem_get c hc
        right; intro hn
        have := (h2 t i).mpr ⟨c, hi, e⟩
        rw [hn] at this; simp at this
    · rintro (hn | hn)
      · obtain ⟨i, hi⟩ := List.exists_mem_of_ne_nil _ hn
        obtain ⟨c, hc, e⟩ := (h1 t i).mp hi
        unfold tkns
        exact List.mem_append_left _ (List.mem_map.mpr ⟨c, List.mem_of_getElem? hc, e⟩)
      · obtain ⟨i, hi⟩ := List.exists_mem_of_ne_nil _ hn
        obtain ⟨c, hc, e⟩ := (h2 t i).mp hi
        unfold tkns
        exact List.mem_append_right _ (List.mem_map.mpr ⟨c, List.mem_of_getElem? hc, e⟩)
  · intro i hi
    have hg : cc.curves[i]? = some cc.curves[i] := List.getElem?_eq_getElem hi
    constructor
    · refine ⟨cc.curves[i].tknb, (h1 _ i).mpr ⟨_, hg, rfl⟩, fun u hu => ?_⟩
      obtain ⟨c, hc, e⟩ := (h1 u i).mp hu
      rw [hg] at hc
      rw [← e, Option.some.inj hc]
    · refine ⟨cc.curves[i].tknq, (h2 _ i).mpr ⟨_, hg, rfl⟩, fun u hu => ?_⟩
      obtain ⟨c, hc, e⟩ := (h2 u i).mp hu
      rw [hg] at hc
      rw [← e, Option.some.inj hc]

end

/-! ## Examples and violations -/

/-- A pool with given reserves, pair and id. -/
def pool (x y : ℚ) (pair : String) (cid : Option Cid) : CPC ℚ := ⟨x * y, x, x, y, pair.toList, cid, "default".toList⟩

/-- Three curves, two of which trade the same tokens in opposite directions. -/
def exCC : CC ℚ := ofCurves [pool 2 2 "ETH/USDC" none, pool 4 1 "USDC/ETH" none, pool 1 9 "LINK/USDC" none]

theorem exCC_built : Built exCC := Built.make _

theorem pool_sound {x y : ℚ} (hx : 0 < x) (hy : 0 < y) {pair : String} {b q : Str} (h : CarbonPair.unpack pair.toList = .ok (b, q))
    (cid : Option Cid) : CPC.Sound (pool x y pair cid) :=
  ⟨mul_pos hx hy, hx, hx.le, le_refl _, hy.le, by
    show y ≤ x * y / x
    rw [mul_div_cancel_left₀ _ hx.ne'], b, q, h⟩

theorem exCC_sound : ∀ c ∈ exCC.curves, CPC.Sound c := by
  intro c hc
  have e : exCC.curves = [pool 2 2 "ETH/USDC" (some (.int 0)), pool 4 1 "USDC/ETH" (some (.int 1)),
    pool 1 9 "LINK/USDC" (some (.int 2))] := by decide +kernel
  rw [e] at hc
  simp only [List.mem_cons, List.not_mem_nil, or_false] at hc
  rcases hc with rfl | rfl | rfl
  · exact pool_sound (by norm_num) (by norm_num) (b := "ETH".toList) (q := "USDC".toList) (by decide +kernel) _
  · exact pool_sound (by norm_num) (by norm_num) (b := "USDC".toList) (q := "ETH".toList) (by decide +kernel) _
  · exact pool_sound (by norm_num) (by norm_num) (b := "LINK".toList) (q := "USDC".toList) (by decide +kernel) _

/-- The hypotheses of C73 are satisfied and the prices are these: the average of 1 and 4, and its reciprocal. -/
example : exCC.price "ETH".toList "USDC".toList = .ok (some (5 / 2)) ∧
    exCC.price "USDC".toList "ETH".toList = .ok (some (2 / 5)) ∧ exCC.price "LINK".toList "ETH".toList = .ok none ∧
    (exCC.bypair "ETH/USDC".toList).cids = [some (.int 0), some (.int 1)] ∧
    (exCC.bytknxs ["LINK".toList, "USDC".toList]).cids = [some (.int 1), some (.int 2)] ∧
    exCC.tokenEntry "USDC".toList = ([1], [0, 2]) := by decide +kernel

/-- **C74** The estimates of the two directions are not reciprocal: 2.5 and 0.625. -/
theorem C74_reciprocal_violated :
    exCC.priceEstimate "ETH".toList "USDC".toList = .ok (some (5 / 2)) ∧
      exCC.priceEstimate "USDC".toList "ETH".toList = .ok (some (5 / 8)) ∧ (5 / 2 : ℚ) * (5 / 8) ≠ 1 := by
  refine ⟨by decide +kernel, by decide +kernel, by norm_num⟩

/-- **C43** Selecting by ids does not keep the order of the container, repeats a curve named twice, and raises on an unknown id. -/
theorem C43_order_violated :
    (exCC.bycids (some [.int 2, .int 0, .int 2])).map CC.cids = .ok [some (.int 2), some (.int 0), some (.int 2)] ∧
      (exCC.bycids (some [.int 7])).map CC.cids = .error .key := by decide +kernel

/-- **C43** Selecting by a pair puts the curves of the pair before those of its reverse, whatever the order in the container, and
lists a curve between a token and itself twice. -/
theorem C43_bypair_violated :
    (exCC.bypair "USDC/ETH".toList).cids = [some (.int 1), some (.int 0)] ∧
      ((ofCurves [pool 1 1 "A/A" none]).bypair "A/A".toList).cids = [some (.int 0), some (.int 0)] := by decide +kernel

/-- **C72** An id given as a number can be given again by the container: the first curve is no longer found. -/
theorem C72_violated :
    (ofCurves [pool 2 2 "ETH/USDC" (some (.int 1)), pool 4 1 "USDC/ETH" none]).cids = [some (.int 1), some (.int 1)] ∧
      (ofCurves [pool 2 2 "ETH/USDC" (some (.int 1)), pool 4 1 "USDC/ETH" none]).bycid (.int 1) =
        some (pool 4 1 "USDC/ETH" (some (.int 1))) := by decide +kernel

end CC

end Carbon
