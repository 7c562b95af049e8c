import Verif.Tools.CpcAnalysis
import Verif.Prop.CpcContainer
import Verif.Prop.CpcFilters
import Mathlib.Tactic.Positivity
import Mathlib.Tactic.FieldSimp

/-!
# The analysis of a container: counts, prices and volumes by pair (C131), statistics and price matrices (C132)
-/

set_option linter.unusedSectionVars false

namespace Carbon

open CarbonPair (pyDiv)
open UICurve (pyDiv_ok)

/-! ## Aggregators -/

namespace AF

section
variable {K : Type} [Field K] [LinearOrder K] [IsStrictOrderedRing K] [PySqrt K]

theorem foldl_max (l : List K) : ∀ a : K, (∀ v ∈ a :: l, v ≤ l.foldl max a) ∧ l.foldl max a ∈ a :: l := by
  induction l with
  | nil => intro a; simp
  | cons b l ih =>
    intro a
    obtain ⟨h1, h2⟩ := ih (max a b)
    refine ⟨fun v hv => ?_, ?_⟩
    · rcases List.mem_cons.mp hv with rfl | hv
      · exact le_trans (le_max_left _ _) (h1 _ List.mem_cons_self)
      rcases List.mem_cons.mp hv with rfl | hv
      · exact le_trans (le_max_right _ _) (h1 _ List.mem_cons_self)
      · exact h1 _ (by simp [hv])
    · rw [List.foldl_cons]
      rcases List.mem_cons.mp h2 with h2 | h2
      · rw [h2]
        rcases max_choice a b with e | e <;> rw [e] <;> simp
      · simp [h2]

theorem foldl_min (l : List K) : ∀ a : K, (∀ v ∈ a :: l, l.foldl min a ≤ v) ∧ l.foldl min a ∈ a :: l := by
  induction l with
  | nil => intro a; simp
  | cons b l ih =>
    intro a
    obtain ⟨h1, h2⟩ := ih (min a b)
    refine ⟨fun v hv => ?_, ?_⟩
    · rcases List.mem_cons.mp hv with rfl | hv
      · exact le_trans (h1 _ List.mem_cons_self) (min_le_left _ _)
      rcases List.mem_cons.mp hv with rfl | hv
      · exact le_trans (h1 _ List.mem_cons_self) (min_le_right _ _)
      · exact h1 _ (by simp [hv])
    · rw [List.foldl_cons]
      rcases List.mem_cons.mp h2 with h2 | h2
      · rw [h2]
        rcases min_choice a b with e | e <;> rw [e] <;> simp
      · simp [h2]

theorem npMax_spec {l : List K} (h : l ≠ []) : npMax l ∈ l ∧ ∀ v ∈ l, v ≤ npMax l := by
  cases l with
  | nil => exact absurd rfl h
  | cons a l => exact ⟨(foldl_max l a).2, (foldl_max l a).1⟩

theorem npMin_spec {l : List K} (h : l ≠ []) : npMin l ∈ l ∧ ∀ v ∈ l, npMin l ≤ v := by
  cases l with
  | nil => exact absurd rfl h
  | cons a l => exact ⟨(foldl_min l a).2, (foldl_min l a).1⟩

theorem sum_le_of {l : List K} {b : K} (h : ∀ v ∈ l, v ≤ b) : l.sum ≤ (l.length : K) * b := by
  induction l with
  | nil => simp
  | cons a l ih =>
    have := ih fun v hv => h v (by simp [hv])
    have ha := h a (by simp)
    rw [List.sum_cons, List.length_cons]; push_cast; nlinarith

theorem le_sum_of {l : List K} {b : K} (h : ∀ v ∈ l, b ≤ v) : (l.length : K) * b ≤ l.sum := by
  induction l with
  | nil => simp
  | cons a l ih =>
    have := ih fun v hv => h v (by simp [hv])
    have ha := h a (by simp)
    rw [List.sum_cons, List.length_cons]; push_cast; nlinarith

theorem length_pos' {l : List K} (h : l ≠ []) : (0 : K) < (l.length : K) := by
  exact_mod_cast List.length_pos_of_ne_nil h

theorem mean_le_of {l : List K} (h : l ≠ []) {b : K} (hb : ∀ v ∈ l, v ≤ b) : mean l ≤ b := by
  unfold mean
  rw [div_le_iff₀ (length_pos' h), mul_comm]
  exact sum_le_of hb

theorem le_mean_of {l : List K} (h : l ≠ []) {b : K} (hb : ∀ v ∈ l, b ≤ v) : b ≤ mean l := by
  unfold mean
  rw [le_div_iff₀ (length_pos' h), mul_comm]
  exact le_sum_of hb

theorem mean_between {l : List K} (h : l ≠ []) : npMin l ≤ mean l ∧ mean l ≤ npMax l :=
  ⟨le_mean_of h (npMin_spec h).2, mean_le_of h (npMax_spec h).2⟩

theorem mean_eq {l : List K} (h : l ≠ []) {b : K} (hb : ∀ v ∈ l, v = b) : mean l = b :=
  le_antisymm (mean_le_of h fun v hv => (hb v hv).le) (le_mean_of h fun v hv => (hb v hv).ge)

theorem mean_pos {l : List K} (h : l ≠ []) (hp : ∀ v ∈ l, 0 < v) : 0 < mean l :=
  lt_of_lt_of_le (hp _ (npMin_spec h).1) (mean_between h).1

theorem sum_sq_zero {l : List K} (hs : (l.map fun v => v ^ 2).sum = 0) : ∀ v ∈ l, v = 0 := by
  induction l with
  | nil => simp
  | cons a l ih =>
    rw [List.map_cons, List.sum_cons] at hs
    have h1 : 0 ≤ (l.map fun v => v ^ 2).sum := by
      apply List.sum_nonneg
      intro x hx
      obtain ⟨v, -, rfl⟩ := List.mem_map.mp hx
      positivity
    have h2 : 0 ≤ a ^ 2 := by positivity
    have h3 : a ^ 2 = 0 := le_antisymm (by linarith) h2
    have h4 : (l.map fun v => v ^ 2).sum = 0 := le_antisymm (by linarith) h1
    intro v hv
    rcases List.mem_cons.mp hv with rfl | hv
    · exact pow_eq_zero_iff (two_ne_zero) |>.mp h3
    · exact ih h4 v hv

end

section Real

theorem meansq_nonneg (l : List ℝ) : 0 ≤ mean (l.map fun v => (v - mean l) ^ 2) := by
  unfold mean
  apply div_nonneg
  · apply List.sum_nonneg
    intro x hx
    obtain ⟨v, -, rfl⟩ := List.mem_map.mp hx
    positivity
  · positivity

theorem std_nonneg (l : List ℝ) : 0 ≤ std l := Real.sqrt_nonneg _

theorem std_sq (l : List ℝ) : std l ^ 2 = mean (l.map fun v => (v - mean l) ^ 2) := Real.sq_sqrt (meansq_nonneg l)

theorem std_zero_iff {l : List ℝ} (h : l ≠ []) : std l = 0 ↔ ∀ v ∈ l, ∀ w ∈ l, v = w := by
  constructor
  · intro hs
    have h1 : mean (l.map fun v => (v - mean l) ^ 2) = 0 := by rw [← std_sq, hs]; norm_num
    have h2 : ((l.map fun v => v - mean l).map fun v => v ^ 2).sum = 0 := by
      unfold mean at h1
      rw [div_eq_zero_iff] at h1
      rcases h1 with h1 | h1
      · rw [List.map_map]; exact h1
      · rw [List.length_map] at h1
        exact absurd h1 (length_pos' h).ne'
    have h3 := sum_sq_zero h2
    intro v hv w hw
    have hv' := h3 _ (List.mem_map.mpr ⟨v, hv, rfl⟩)
    have hw' := h3 _ (List.mem_map.mpr ⟨w, hw, rfl⟩)
    linarith
  · intro hs
    obtain ⟨a, ha⟩ := List.exists_mem_of_ne_nil l h
    have hm : mean l = a := mean_eq h fun v hv => hs v hv a ha
    have : mean (l.map fun v => (v - mean l) ^ 2) = 0 := by
      apply mean_eq (by simpa using h)
      intro x hx
      obtain ⟨v, hv, rfl⟩ := List.mem_map.mp hx
      rw [hm, hs v hv a ha]; ring
    show Real.sqrt _ = 0
    rw [this, Real.sqrt_zero]

theorem mean_scale (l : List ℝ) (s : ℝ) : mean (l.map fun v => s * v) = s * mean l := by
  unfold mean
  rw [List.sum_map_mul_left, List.length_map]
  simp only [List.map_id']
  ring

theorem std_scale (l : List ℝ) {s : ℝ} (hs : 0 ≤ s) : std (l.map fun v => s * v) = s * std l := by
  have h : (0 : ℝ) ≤ s * std l := mul_nonneg hs (std_nonneg l)
  have h2 : std (l.map fun v => s * v) ^ 2 = (s * std l) ^ 2 := by
    rw [std_sq, mul_pow, std_sq, mean_scale, List.map_map]
    have : ((fun v => (v - s * mean l) ^ 2) ∘ fun v => s * v) = fun v => s ^ 2 * (v - mean l) ^ 2 := by
      funext v; simp only [Function.comp]; ring
    rw [this, ← mean_scale (l.map fun v => (v - mean l) ^ 2), List.map_map]; rfl
  exact (pow_left_inj₀ (std_nonneg _) h two_ne_zero).mp h2

end Real

end AF

/-! ## Tables -/

namespace Tbl

variable {α β : Type}

theorem pivot_get (lines : List (Str × Str × β)) (agg : List β → α) (i j : Str) :
    (pivot lines agg).get? i j = if group lines i j = [] then none else some (agg (group lines i j)) := by
  unfold get?
  by_cases h : group lines i j = []
  · show (if _ then (if group lines i j = [] then _ else _) else none) = _
    rw [if_pos h]; simp
  · obtain ⟨v, hv⟩ := List.exists_mem_of_ne_nil _ h
    unfold group at hv
    obtain ⟨l, hl, -⟩ := List.mem_map.mp hv
    rw [List.mem_filter, Bool.and_eq_true, decide_eq_true_eq, decide_eq_true_eq] at hl
    obtain ⟨hl, rfl, rfl⟩ := hl
    rw [if_pos]
    · rfl
    · exact ⟨List.mem_dedup.mpr (List.mem_map.mpr ⟨l, hl, rfl⟩), List.mem_dedup.mpr (List.mem_map.mpr ⟨l, hl, rfl⟩)⟩

theorem fillna_get (t : Tbl α) (v : α) (i j : Str) :
    (t.fillna v).get? i j = if i ∈ t.rows ∧ j ∈ t.cols then some ((t.get? i j).getD v) else none := by
  unfold get? fillna
  dsimp only
  split <;> rfl

theorem symmetric_get (t : Tbl Nat) (i j : Str) :
    t.makeSymmetric.get? i j =
      if (i ∈ t.rows ∨ i ∈ t.cols) ∧ (j ∈ t.rows ∨ j ∈ t.cols) then some ((nanAdd (t.get? i j) (t.get? j i)).getD 0) else none := by
  unfold makeSymmetric
  rw [fillna_get]
  show (if i ∈ (t.rows ++ t.cols).dedup ∧ j ∈ (t.rows ++ t.cols).dedup then _ else _) = _
  simp only [List.mem_dedup, List.mem_append]
  by_cases h : (i ∈ t.rows ∨ i ∈ t.cols) ∧ (j ∈ t.rows ∨ j ∈ t.cols)
  · rw [if_pos h, if_pos h]
    congr 2
    unfold get?
    rw [if_pos (by
      show i ∈ (t.rows ++ t.cols).dedup ∧ j ∈ (t.rows ++ t.cols).dedup
      simp only [List.mem_dedup, List.mem_append]; exact h)]
    rfl
  · rw [if_neg h, if_neg h]

end Tbl

namespace CC

section
variable {K : Type} [Field K] [LinearOrder K] [IsStrictOrderedRing K] [PySqrt K]

/-! ## C131: which curves are analysed -/

/-- The price of the primary pair. -/
def primPrice (c : CPC K) : K := if c.pairo.isprimary TPair.prettify then c.p else 1 / c.p

/-- The line of a curve. -/
def recOf (c : CPC K) : Record K :=
  ⟨c.tknb, c.tknq, c.tknb, c.tknq, c.pair, primaryOf c, c.pairo.isprimary TPair.prettify, c.p, primPrice c, c.x, c.xAct, c.y, c.yAct,
    c.cid⟩

theorem record_ok {c : CPC K} (hs : CPC.Sound c) : record c = .ok (recOf c) := by
  obtain ⟨u, v, huv⟩ := hs.hpair
  obtain ⟨rfl, rfl, hu, hv, hp⟩ := CPC.tkn_of_pair huv
  unfold record TPair.ofStr
  rw [huv]
  simp only [Py.ok_bind]
  have hpp : (⟨c.tknb, c.tknq⟩ : TPair).primaryPrice TPair.prettify c.p = .ok (primPrice c) := by
    unfold TPair.primaryPrice primPrice CPC.pairo
    split
    · rfl
    · rw [pyDiv_ok (p_pos hs).ne']
  rw [hpp, Py.ok_bind]
  have : c.pair = c.tknb ++ '/' :: c.tknq := (CarbonPair.unpack_eq_ok.mp huv).1
  unfold recOf TPair.pair
  rw [← this]
  rfl

theorem mapM_record {cs : List (CPC K)} (hs : ∀ c ∈ cs, CPC.Sound c) : cs.mapM record = (.ok (cs.map recOf) : Py _) := by
  induction cs with
  | nil => rfl
  | cons c cs ih =>
    rw [List.mapM_cons, record_ok (hs c (by simp)), ih fun d hd => hs d (by simp [hd])]; rfl

/-- **C131** The analysis looks at every curve of the container, in order, once; or, if pairs are given, at those of the pairs in one of
the directions. -/
theorem C131_selection (cc : CC K) (hb : Built cc) (hs : ∀ c ∈ cc.curves, CPC.Sound c) :
    cc.records = .ok (cc.curves.map recOf) ∧
    ∀ ps : List (Str × Str), (∀ t ∈ ps, '/' ∉ t.1 ∧ '/' ∉ t.2) →
      cc.records (some (ps.map fun t => t.1 ++ '/' :: t.2)) =
        .ok ((cc.curves.filter fun c => decide (∃ t ∈ ps, Trades c t.1 t.2)).map recOf) := by
  have tok : ∀ c ∈ cc.curves, c.pair = c.tknb ++ '/' :: c.tknq ∧ '/' ∉ c.tknb ∧ '/' ∉ c.tknq := by
    intro c hc
    obtain ⟨u, v, huv⟩ := (hs c hc).hpair
    obtain ⟨rfl, rfl, hu, hv, -⟩ := CPC.tkn_of_pair huv
    exact ⟨(CarbonPair.unpack_eq_ok.mp huv).1, hu, hv⟩
  have sel : ∀ ps : List (Str × Str), (∀ t ∈ ps, '/' ∉ t.1 ∧ '/' ∉ t.2) →
      cc.records (some (ps.map fun t => t.1 ++ '/' :: t.2)) =
        .ok ((cc.curves.filter fun c => decide (∃ t ∈ ps, Trades c t.1 t.2)).map recOf) := by
    intro ps hps
    obtain ⟨r, h1, h2⟩ := C43_bypairs cc hb ps hps false
    unfold records analysed
    rw [Option.getD_some, h1]
    simp only [Py.ok_bind]
    have : r.curves = cc.curves.filter fun c => decide (∃ t ∈ ps, Trades c t.1 t.2) := by
      rw [h2]
      apply List.filter_congr
      intro c hc
      obtain ⟨e, hu, hv⟩ := tok c hc
      rw [decide_eq_decide]
      refine exists_congr fun t => and_congr_right fun ht => ?_
      unfold Trades
      rw [e]
      constructor
      · rintro (h | ⟨-, h⟩)
        · exact Or.inl (sep_inj hu hv h)
        · exact Or.inr (sep_inj hu hv h)
      · rintro (⟨h, h'⟩ | ⟨h, h'⟩)
        · rw [h, h']; exact Or.inl rfl
        · rw [h, h']; exact Or.inr ⟨rfl, rfl⟩
    rw [this]
    exact mapM_record fun c hc => hs c (List.mem_of_mem_filter hc)
  refine ⟨?_, sel⟩
  -- the primary pairs are pairs of tokens
  obtain ⟨ps, hps⟩ : ∃ ps : List (Str × Str), ps = cc.curves.map fun c =>
      if c.pairo.isprimary TPair.prettify then (c.tknb, c.tknq) else (c.tknq, c.tknb) := ⟨_, rfl⟩
  have e : cc.records none = cc.records (some (ps.map fun t => t.1 ++ '/' :: t.2)) := by
    unfold records analysed
    congr 3
    rw [Option.getD_none, Option.getD_some]
    congr 1
    rw [hps, List.map_map]
    show cc.curves.map primaryOf = _
    apply List.map_congr_left
    intro c _
    unfold primaryOf TPair.primary
    simp only [Function.comp]
    split <;> rfl
  rw [e, sel ps]
  · congr 2
    rw [List.filter_eq_self]
    intro c hc
    rw [decide_eq_true_eq]
    refine ⟨_, by rw [hps]; exact List.mem_map.mpr ⟨c, hc, rfl⟩, ?_⟩
    unfold Trades
    split
    · exact Or.inl ⟨rfl, rfl⟩
    · exact Or.inr ⟨rfl, rfl⟩
  · intro t ht
    rw [hps] at ht
    obtain ⟨c, hc, rfl⟩ := List.mem_map.mp ht
    obtain ⟨-, hu, hv⟩ := tok c hc
    split
    · exact ⟨hu, hv⟩
    · exact ⟨hv, hu⟩

/-! ## C131: numbers of curves -/

/-- The curves with given base and quote tokens. -/
def ofPair (cs : List (CPC K)) (b q : Str) : List (CPC K) := cs.filter fun c => decide (c.tknb = b) && decide (c.tknq = q)

theorem mem_ofPair {cs : List (CPC K)} {b q : Str} {c : CPC K} : c ∈ ofPair cs b q ↔ c ∈ cs ∧ c.tknb = b ∧ c.tknq = q := by
  unfold ofPair; rw [List.mem_filter, Bool.and_eq_true, decide_eq_true_eq, decide_eq_true_eq]

theorem group_recs {β : Type} (f : CPC K → β) (cs : List (CPC K)) (b q : Str) :
    Tbl.group (cs.map fun c => (c.tknb, c.tknq, f c)) b q = (ofPair cs b q).map f := by
  unfold Tbl.group ofPair
  rw [List.filter_map, List.map_map]
  rfl

theorem pivot_rows {β α : Type} (f : CPC K → β) (agg : List β → α) (cs : List (CPC K)) (b : Str) :
    (b ∈ (Tbl.pivot (cs.map fun c => (c.tknb, c.tknq, f c)) agg).rows ↔ ∃ c ∈ cs, c.tknb = b) ∧
      (b ∈ (Tbl.pivot (cs.map fun c => (c.tknb, c.tknq, f c)) agg).cols ↔ ∃ c ∈ cs, c.tknq = b) := by
  unfold Tbl.pivot
  simp [List.mem_dedup]

theorem pivotBQ_recs (cs : List (CPC K)) :
    pivotBQ (cs.map recOf) = (Tbl.pivot (cs.map fun c => (c.tknb, c.tknq, c.tknb)) List.length).fillna 0 := by
  unfold pivotBQ
  rw [List.map_map]
  rfl

/-- **C131** The table of pairs has a row for every base and a column for every quote token of a curve; a cell holds the number of curves
with these tokens. The two ways to name the tokens give the same table. -/
theorem C131_count (cs : List (CPC K)) (b q : Str) :
    (pivotBQ (cs.map recOf)).get? b q =
        (if (∃ c ∈ cs, c.tknb = b) ∧ ∃ c ∈ cs, c.tknq = q then some (ofPair cs b q).length else none) ∧
      (pivotXY (cs.map recOf)).get? b q = (pivotBQ (cs.map recOf)).get? b q := by
  constructor
  · rw [pivotBQ_recs, Tbl.fillna_get, Tbl.pivot_get, group_recs]
    obtain ⟨h1, -⟩ := pivot_rows (fun c => c.tknb) List.length cs b
    obtain ⟨-, h2⟩ := pivot_rows (fun c => c.tknb) List.length cs q
    by_cases h : (∃ c ∈ cs, c.tknb = b) ∧ ∃ c ∈ cs, c.tknq = q
    · rw [if_pos h, if_pos ⟨h1.mpr h.1, h2.mpr h.2⟩]
      congr 1
      by_cases hg : ofPair cs b q = []
      · rw [hg]; rfl
      · rw [if_neg (by simpa using hg)]; simp
    · rw [if_neg h, if_neg (by rintro ⟨a1, a2⟩; exact h ⟨h1.mp a1, h2.mp a2⟩)]
  · unfold pivotXY pivotBQ
    rw [List.map_map, List.map_map]
    rfl

theorem sum_indicator {l : List Str} (hn : l.Nodup) {a : Str} (ha : a ∈ l) (n : Nat) :
    (l.map fun i => if a = i then n else 0).sum = n := by
  induction l with
  | nil => simp at ha
  | cons i l ih =>
    rw [List.nodup_cons] at hn
    rw [List.map_cons, List.sum_cons]
    by_cases h : a = i
    · subst h
      rw [if_pos rfl]
      have : (l.map fun i => if a = i then n else 0).sum = 0 := by
        apply List.sum_eq_zero
        intro x hx
        obtain ⟨j, hj, rfl⟩ := List.mem_map.mp hx
        rw [if_neg]; rintro rfl; exact hn.1 hj
      omega
    · rw [if_neg h, ih hn.2 (by simpa [h] using ha)]; omega

/-- **C131** All curves are counted once: the cells add up to the number of curves. -/
theorem C131_total (cs : List (CPC K)) :
    (((pivotBQ (cs.map recOf)).rows.map fun b => ((pivotBQ (cs.map recOf)).cols.map fun q =>
      ((pivotBQ (cs.map recOf)).get? b q).getD 0).sum).sum) = cs.length := by
  have hR : ∀ c ∈ cs, c.tknb ∈ (pivotBQ (cs.map recOf)).rows := by
    intro c hc; rw [pivotBQ_recs]; exact (pivot_rows (fun c => c.tknb) List.length cs _).1.mpr ⟨c, hc, rfl⟩
  have hC : ∀ c ∈ cs, c.tknq ∈ (pivotBQ (cs.map recOf)).cols := by
    intro c hc; rw [pivotBQ_recs]; exact (pivot_rows (fun c => c.tknb) List.length cs _).2.mpr ⟨c, hc, rfl⟩
  have hRn : (pivotBQ (cs.map recOf)).rows.Nodup := List.nodup_dedup _
  have hCn : (pivotBQ (cs.map recOf)).cols.Nodup := List.nodup_dedup _
  have hcell : ∀ b q, ((pivotBQ (cs.map recOf)).get? b q).getD 0 = (ofPair cs b q).length := by
    intro b q
    rw [(C131_count cs b q).1]
    split
    · rfl
    · rename_i h
      have : ofPair cs b q = [] := by
        rw [List.eq_nil_iff_forall_not_mem]
        intro c hc
        obtain ⟨hc, h1, h2⟩ := mem_ofPair.mp hc
        exact h ⟨⟨c, hc, h1⟩, c, hc, h2⟩
      rw [this]; rfl
  simp only [hcell]
  clear hcell
  generalize (pivotBQ (cs.map recOf)).rows = R at *
  generalize (pivotBQ (cs.map recOf)).cols = C at *
  induction cs with
  | nil =>
    simp [ofPair]
  | cons c cs ih =>
    have e : ∀ b q, (ofPair (c :: cs) b q).length = (if c.tknb = b then (if c.tknq = q then 1 else 0) else 0) + (ofPair cs b q).length := by
      intro b q
      unfold ofPair
      by_cases h1 : c.tknb = b <;> by_cases h2 : c.tknq = q <;> (simp [h1, h2]; try omega)
    have e2 : ∀ b, (C.map fun q => (ofPair (c :: cs) b q).length).sum =
        (if c.tknb = b then 1 else 0) + (C.map fun q => (ofPair cs b q).length).sum := by
      intro b
      simp only [e]
      rw [List.sum_map_add]
      congr 1
      by_cases h : c.tknb = b
      · simp only [if_pos h]
        exact sum_indicator hCn (hC c (by simp)) 1
      · simp [h]
    simp only [e2]
    rw [List.sum_map_add, sum_indicator hRn (hR c (by simp)) 1]
    have := ih (fun d hd => hR d (by simp [hd])) (fun d hd => hC d (by simp [hd]))
    rw [this, List.length_cons]; omega

/-! ## C131: the symmetric table -/

/-- A token is the base token of a curve and the quote token of a curve. -/
def BothSides (cs : List (CPC K)) (t : Str) : Prop := (∃ c ∈ cs, c.tknb = t) ∧ ∃ c ∈ cs, c.tknq = t

/-- A token of one of the curves. -/
def Occurs (cs : List (CPC K)) (t : Str) : Prop := ∃ c ∈ cs, c.tknb = t ∨ c.tknq = t

instance (cs : List (CPC K)) (t : Str) : Decidable (Occurs cs t) := by unfold Occurs; infer_instance

theorem occurs_iff (cs : List (CPC K)) (t : Str) :
    Occurs cs t ↔ (t ∈ (pivotBQ (cs.map recOf)).rows ∨ t ∈ (pivotBQ (cs.map recOf)).cols) := by
  rw [pivotBQ_recs]
  have h := pivot_rows (fun c => c.tknb) List.length cs t
  show _ ↔ (t ∈ (Tbl.pivot (cs.map fun c => (c.tknb, c.tknq, c.tknb)) List.length).rows ∨
    t ∈ (Tbl.pivot (cs.map fun c => (c.tknb, c.tknq, c.tknb)) List.length).cols)
  rw [h.1, h.2]
  unfold Occurs
  constructor
  · rintro ⟨c, hc, h | h⟩
    · exact Or.inl ⟨c, hc, h⟩
    · exact Or.inr ⟨c, hc, h⟩
  · rintro (⟨c, hc, h⟩ | ⟨c, hc, h⟩)
    · exact ⟨c, hc, Or.inl h⟩
    · exact ⟨c, hc, Or.inr h⟩

/-- **C131** (the part that holds) The symmetric table has rows and columns for all tokens and is symmetric. The cell of two tokens holds the
number of curves that trade the one for the other, in both directions, if each of the tokens is the base token of some curve and the quote
token of some curve; otherwise it is zero. -/
theorem C131_symmetric_partial (cs : List (CPC K)) (s t : Str) :
    ((pivotBQS (cs.map recOf)).get? s t ≠ none ↔ Occurs cs s ∧ Occurs cs t) ∧
      (pivotBQS (cs.map recOf)).get? s t = (pivotBQS (cs.map recOf)).get? t s ∧
      (BothSides cs s → BothSides cs t →
        (pivotBQS (cs.map recOf)).get? s t = some ((ofPair cs s t).length + (ofPair cs t s).length)) ∧
      (Occurs cs s → Occurs cs t → ¬ (BothSides cs s ∧ BothSides cs t) → (pivotBQS (cs.map recOf)).get? s t = some 0) := by
  have key : ∀ s t, (pivotBQS (cs.map recOf)).get? s t = if Occurs cs s ∧ Occurs cs t then
      some ((Tbl.nanAdd ((pivotBQ (cs.map recOf)).get? s t) ((pivotBQ (cs.map recOf)).get? t s)).getD 0) else none := by
    intro s t
    unfold pivotBQS
    rw [Tbl.symmetric_get]
    simp only [occurs_iff]
  have occ : ∀ t, BothSides cs t → Occurs cs t := fun t ⟨⟨c, hc, h⟩, _⟩ => ⟨c, hc, Or.inl h⟩
  refine ⟨?_, ?_, ?_, ?_⟩
  · rw [key]
    by_cases h : Occurs cs s ∧ Occurs cs t
    · rw [if_pos h]; simp [h]
    · rw [if_neg h]; simp [h]
  · rw [key, key]
    have e : (Tbl.nanAdd ((pivotBQ (cs.map recOf)).get? s t) ((pivotBQ (cs.map recOf)).get? t s)) =
        Tbl.nanAdd ((pivotBQ (cs.map recOf)).get? t s) ((pivotBQ (cs.map recOf)).get? s t) := by
      cases (pivotBQ (cs.map recOf)).get? s t <;> cases (pivotBQ (cs.map recOf)).get? t s <;> simp [Tbl.nanAdd, Nat.add_comm]
    rw [e]
    by_cases h1 : Occurs cs s <;> by_cases h2 : Occurs cs t <;> simp [h1, h2]
  · intro h1 h2
    rw [key, if_pos ⟨occ s h1, occ t h2⟩, (C131_count cs s t).1, (C131_count cs t s).1, if_pos ⟨h1.1, h2.2⟩, if_pos ⟨h2.1, h1.2⟩]
    rfl
  · intro h1 h2 h3
    rw [key, if_pos ⟨h1, h2⟩, (C131_count cs s t).1, (C131_count cs t s).1]
    by_cases h4 : (∃ c ∈ cs, c.tknb = s) ∧ ∃ c ∈ cs, c.tknq = t
    · rw [if_pos h4, if_neg]
      · rfl
      · rintro ⟨h5, h6⟩
        exact h3 ⟨⟨h4.1, h6⟩, h5, h4.2⟩
    · rw [if_neg h4]
      rfl

/-- C131 fails for the symmetric table: if no token is both a base and a quote token of the curves, as for pools against one common
numeraire, all of its cells are zero, although there may be any number of curves. -/
theorem C131_symmetric_empty (cs : List (CPC K)) (h : ∀ t, ¬ BothSides cs t) (s t : Str) :
    ((pivotBQS (cs.map recOf)).get? s t).getD 0 = 0 := by
  by_cases ho : Occurs cs s ∧ Occurs cs t
  · rw [(C131_symmetric_partial cs s t).2.2.2 ho.1 ho.2 fun hb => h s hb.1]; rfl
  · have := (C131_symmetric_partial cs s t).1
    rw [not_iff_not.symm, not_not] at this
    rw [this.mpr ho]; rfl

/-! ## C131: prices -/

theorem priceLines_recs (cs : List (CPC K)) : priceLines (cs.map recOf) = cs.map fun c => (c.tknb, c.tknq, c.p) := by
  unfold priceLines; rw [List.map_map]; rfl

theorem price_get (agg : List K → K) (cs : List (CPC K)) (b q : Str) :
    ((Tbl.pivot (priceLines (cs.map recOf)) agg).fillna 0).get? b q =
      if (∃ c ∈ cs, c.tknb = b) ∧ ∃ c ∈ cs, c.tknq = q then
        some (if ofPair cs b q = [] then 0 else agg ((ofPair cs b q).map CPC.p)) else none := by
  rw [priceLines_recs, Tbl.fillna_get, Tbl.pivot_get, group_recs]
  obtain ⟨h1, -⟩ := pivot_rows (fun c => c.p) agg cs b
  obtain ⟨-, h2⟩ := pivot_rows (fun c => c.p) agg cs q
  by_cases h : (∃ c ∈ cs, c.tknb = b) ∧ ∃ c ∈ cs, c.tknq = q
  · rw [if_pos h, if_pos ⟨h1.mpr h.1, h2.mpr h.2⟩]
    by_cases hg : ofPair cs b q = []
    · simp [hg]
    · simp [hg]
  · rw [if_neg h, if_neg (by rintro ⟨a1, a2⟩; exact h ⟨h1.mp a1, h2.mp a2⟩)]

/-- **C131** In the price tables the cell of two tokens is zero if no curve has them as base and quote token. Otherwise the table of the
smallest and of the largest prices hold prices of such curves that bound the prices of all others, and the average lies between the two. -/
theorem C131_prices (cs : List (CPC K)) (hs : ∀ c ∈ cs, CPC.Sound c) (b q : Str) (hb : ∃ c ∈ cs, c.tknb = b) (hq : ∃ c ∈ cs, c.tknq = q) :
    ∃ m lo hi, (pivotMean (cs.map recOf)).get? b q = some m ∧ (pivotMin (cs.map recOf)).get? b q = some lo ∧
      (pivotMax (cs.map recOf)).get? b q = some hi ∧ lo ≤ m ∧ m ≤ hi ∧
      (∀ c ∈ cs, c.tknb = b → c.tknq = q → lo ≤ c.p ∧ c.p ≤ hi) ∧
      ((∃ c ∈ cs, c.tknb = b ∧ c.tknq = q) → 0 < lo ∧ (∃ c ∈ cs, c.tknb = b ∧ c.tknq = q ∧ c.p = lo) ∧
        (∃ c ∈ cs, c.tknb = b ∧ c.tknq = q ∧ c.p = hi) ∧
        m * ((ofPair cs b q).length : K) = ((ofPair cs b q).map CPC.p).sum) ∧
      ((¬ ∃ c ∈ cs, c.tknb = b ∧ c.tknq = q) → m = 0 ∧ lo = 0 ∧ hi = 0) := by
  have g1 := price_get AF.mean cs b q
  have g2 := price_get AF.npMin cs b q
  have g3 := price_get AF.npMax cs b q
  rw [if_pos ⟨hb, hq⟩] at g1 g2 g3
  refine ⟨_, _, _, g1, g2, g3, ?_⟩
  by_cases hg : ofPair cs b q = []
  · simp only [if_pos hg]
    have hno : ¬ ∃ c ∈ cs, c.tknb = b ∧ c.tknq = q := by
      rintro ⟨c, hc, h1, h2⟩
      have := mem_ofPair.mpr ⟨hc, h1, h2⟩
      rw [hg] at this; simp at this
    exact ⟨le_rfl, le_rfl, fun c hc h1 h2 => absurd ⟨c, hc, h1, h2⟩ hno, fun h => absurd h hno, fun _ => by simp⟩
  · simp only [if_neg hg]
    have hne : (ofPair cs b q).map CPC.p ≠ [] := by simpa using hg
    have hmn := AF.npMin_spec hne
    have hmx := AF.npMax_spec hne
    have wit : ∀ v ∈ (ofPair cs b q).map CPC.p, ∃ c ∈ cs, c.tknb = b ∧ c.tknq = q ∧ c.p = v := by
      intro v hv
      obtain ⟨c, hc, rfl⟩ := List.mem_map.mp hv
      obtain ⟨h0, h1, h2⟩ := mem_ofPair.mp hc
      exact ⟨c, h0, h1, h2, rfl⟩
    refine ⟨(AF.mean_between hne).1, (AF.mean_between hne).2, ?_, ?_, ?_⟩
    · intro c hc h1 h2
      have hm : c.p ∈ (ofPair cs b q).map CPC.p := List.mem_map.mpr ⟨c, mem_ofPair.mpr ⟨hc, h1, h2⟩, rfl⟩
      exact ⟨hmn.2 _ hm, hmx.2 _ hm⟩
    · intro _
      refine ⟨?_, wit _ hmn.1, wit _ hmx.1, ?_⟩
      · obtain ⟨c, hc, -, -, e⟩ := wit _ hmn.1
        rw [← e]; exact p_pos (hs c hc)
      · unfold AF.mean
        rw [List.length_map]
        have : ((ofPair cs b q).length : K) ≠ 0 := by
          have := List.length_pos_of_ne_nil hg
          exact_mod_cast this.ne'
        field_simp
    · intro h
      obtain ⟨c, hc⟩ := List.exists_mem_of_ne_nil _ hg
      obtain ⟨h0, h1, h2⟩ := mem_ofPair.mp hc
      exact absurd ⟨c, h0, h1, h2⟩ h

theorem primPrice_pos {c : CPC K} (hs : CPC.Sound c) : 0 < primPrice c := by
  unfold primPrice; split
  · exact p_pos hs
  · exact one_div_pos.mpr (p_pos hs)

/-- **C131** The list of prices has a line for every curve; if the ids differ the line shows the price of the curve, and the price of the
primary pair. -/
theorem C131_pricelist (cs : List (CPC K)) (hn : (cs.map CPC.cid).Nodup) (c : CPC K) (hc : c ∈ cs) :
    priceList (cs.map recOf) c.tknb c.tknq c.cid = some (c.p, primPrice c) := by
  have hf : (cs.map recOf).filter (fun r => decide (r.tknb = c.tknb) && decide (r.tknq = c.tknq) && decide (r.cid = c.cid)) =
      [recOf c] := by
    rw [List.filter_map]
    have : cs.filter ((fun r : Record K => decide (r.tknb = c.tknb) && decide (r.tknq = c.tknq) && decide (r.cid = c.cid)) ∘ recOf) = [c] := by
      clear * - hn hc
      induction cs with
      | nil => simp at hc
      | cons d cs ih =>
        rw [List.map_cons, List.nodup_cons] at hn
        rcases List.mem_cons.mp hc with rfl | hc
        · rw [List.filter_cons_of_pos (by simp [recOf])]
          congr 1
          rw [List.filter_eq_nil_iff]
          intro d hd h
          rw [Function.comp, Bool.and_eq_true, decide_eq_true_eq] at h
          have h2 : d.cid = c.cid := h.2
          exact hn.1 (by rw [← h2]; exact List.mem_map.mpr ⟨d, hd, rfl⟩)
        · rw [List.filter_cons_of_neg, ih hn.2 hc]
          intro h
          rw [Function.comp, Bool.and_eq_true, decide_eq_true_eq] at h
          have h2 : d.cid = c.cid := h.2
          exact hn.1 (by rw [h2]; exact List.mem_map.mpr ⟨c, hc, rfl⟩)
    rw [this]; rfl
  unfold priceList
  rw [hf]
  simp [AF.mean, recOf]

/-- **C131** The aggregated list of prices has a line for exactly the pairs of the curves: it names the primary pair, counts the curves, and
the average price of the primary pair lies between the smallest and the largest; the range is a percentage from 0 to 100, and zero exactly
if all prices are equal. -/
theorem C131_priceaggr (cs : List (CPC K)) (hs : ∀ c ∈ cs, CPC.Sound c) (b q : Str) :
    (priceAggr (cs.map recOf) b q = none ↔ ¬ ∃ c ∈ cs, c.tknb = b ∧ c.tknq = q) ∧
    ∀ a, priceAggr (cs.map recOf) b q = some a →
      a.primary = (TPair.fromTokens b q).primary TPair.prettify ∧ a.count = (ofPair cs b q).length ∧
      0 < a.minv ∧ a.minv ≤ a.mean ∧ a.mean ≤ a.maxv ∧
      (∀ c ∈ ofPair cs b q, a.minv ≤ primPrice c ∧ primPrice c ≤ a.maxv) ∧
      0 ≤ a.rangepc100 ∧ a.rangepc100 < 100 ∧
      (a.rangepc100 = 0 ↔ ∀ c ∈ ofPair cs b q, ∀ d ∈ ofPair cs b q, primPrice c = primPrice d) := by
  have hf : (cs.map recOf).filter (fun r => decide (r.tknb = b) && decide (r.tknq = q)) = (ofPair cs b q).map recOf := by
    rw [List.filter_map]; rfl
  cases hg : ofPair cs b q with
  | nil =>
    have hno : ¬ ∃ c ∈ cs, c.tknb = b ∧ c.tknq = q := by
      rintro ⟨c, hc, h1, h2⟩
      have := mem_ofPair.mpr ⟨hc, h1, h2⟩
      rw [hg] at this; simp at this
    have : priceAggr (cs.map recOf) b q = none := by unfold priceAggr; rw [hf, hg]; rfl
    rw [this]
    exact ⟨⟨fun _ => hno, fun _ => rfl⟩, fun a ha => by cases ha⟩
  | cons c l =>
    have hc := mem_ofPair.mp (show c ∈ ofPair cs b q by rw [hg]; simp)
    obtain ⟨pps, hpps⟩ : ∃ pps, pps = (c :: l).map primPrice := ⟨_, rfl⟩
    have hv : priceAggr (cs.map recOf) b q = some ⟨primaryOf c, AF.mean pps, pps.length, AF.sdpc100 pps, AF.npMin pps, AF.npMax pps,
        AF.rangepc100 pps⟩ := by
      unfold priceAggr
      rw [hf, hg, List.map_cons]
      dsimp only
      rw [show (recOf c :: l.map recOf).map (fun r => r.pp) = pps by rw [hpps, List.map_cons, List.map_cons, List.map_map]; rfl]
      rfl
    rw [hv]
    refine ⟨⟨fun h => (by cases h), fun h => absurd ⟨c, hc⟩ h⟩, ?_⟩
    rintro a ha
    cases ha
    have hne : pps ≠ [] := by rw [hpps]; simp
    have hmn := AF.npMin_spec hne
    have hmx := AF.npMax_spec hne
    have hpos : ∀ v ∈ pps, 0 < v := by
      intro v hv
      rw [hpps] at hv
      obtain ⟨d, hd, rfl⟩ := List.mem_map.mp hv
      exact primPrice_pos (hs d (mem_ofPair.mp (by rw [hg]; exact hd)).1)
    have hmem : ∀ d ∈ c :: l, primPrice d ∈ pps := fun d hd => by rw [hpps]; exact List.mem_map.mpr ⟨d, hd, rfl⟩
    have hM : 0 < AF.npMax pps := hpos _ hmx.1
    have hm : 0 < AF.npMin pps := hpos _ hmn.1
    have hr : AF.rangepc100 pps = (AF.npMax pps - AF.npMin pps) / AF.npMax pps * 100 := by
      unfold AF.rangepc100 AF.rangepct; rw [if_neg hM.ne']
    have hle : AF.npMin pps ≤ AF.npMax pps := hmx.2 _ hmn.1
    dsimp only
    refine ⟨?_, by rw [hpps]; simp, hm, (AF.mean_between hne).1, (AF.mean_between hne).2,
      fun d hd => ⟨hmn.2 _ (hmem d hd), hmx.2 _ (hmem d hd)⟩, ?_, ?_, ?_⟩
    · unfold primaryOf CPC.pairo TPair.fromTokens
      rw [hc.2.1, hc.2.2]
    · rw [hr]
      have : 0 ≤ AF.npMax pps - AF.npMin pps := sub_nonneg.mpr hle
      positivity
    · rw [hr]
      have : (AF.npMax pps - AF.npMin pps) / AF.npMax pps < 1 := by rw [div_lt_one hM]; linarith
      linarith
    · rw [hr]
      constructor
      · intro h d hd e he
        have h2 : AF.npMax pps - AF.npMin pps = 0 := by
          rcases mul_eq_zero.mp h with h | h
          · rcases div_eq_zero_iff.mp h with h | h
            · exact h
            · exact absurd h hM.ne'
          · norm_num at h
        have h3 := hmn.2 _ (hmem d hd)
        have h4 := hmx.2 _ (hmem d hd)
        have h5 := hmn.2 _ (hmem e he)
        have h6 := hmx.2 _ (hmem e he)
        linarith
      · intro h
        have : AF.npMax pps = AF.npMin pps := by
          have w : ∀ v ∈ pps, ∃ d ∈ c :: l, primPrice d = v := by
            intro v hv; rw [hpps] at hv
            obtain ⟨d, hd, e⟩ := List.mem_map.mp hv; exact ⟨d, hd, e⟩
          obtain ⟨d, hd, e1⟩ := w _ hmx.1
          obtain ⟨e, he, e2⟩ := w _ hmn.1
          rw [← e1, ← e2]; exact h d hd e he
        rw [this]; simp

/-! ## C131: volumes -/

/-- **C131** Every curve contributes a line for each of its tokens, with its virtual and its actual reserves. The leverage is the quotient,
at least one, and missing exactly if the curve has none of the token. -/
theorem C131_volumes (cs : List (CPC K)) (hs : ∀ c ∈ cs, CPC.Sound c) :
    (volumes (cs.map recOf)).length = 2 * cs.length ∧
    (∀ v, v ∈ volumes (cs.map recOf) ↔
      ∃ c ∈ cs, v.cid = c.cid ∧ ((v.tkn = c.tknb ∧ v.amtv = c.x ∧ v.amt = c.xAct) ∨ (v.tkn = c.tknq ∧ v.amtv = c.y ∧ v.amt = c.yAct))) ∧
    ∀ v ∈ volumes (cs.map recOf), (v.lvg = none ↔ v.amt = 0) ∧ ∀ l, v.lvg = some l → 1 ≤ l ∧ v.amtv = l * v.amt := by
  have hmem : ∀ v, v ∈ volumes (cs.map recOf) ↔
      ∃ c ∈ cs, v.cid = c.cid ∧ ((v.tkn = c.tknb ∧ v.amtv = c.x ∧ v.amt = c.xAct) ∨ (v.tkn = c.tknq ∧ v.amtv = c.y ∧ v.amt = c.yAct)) := by
    intro v
    unfold volumes
    rw [List.map_map, List.map_map, List.mem_append, List.mem_map, List.mem_map]
    constructor
    · rintro (⟨c, hc, rfl⟩ | ⟨c, hc, rfl⟩)
      · exact ⟨c, hc, rfl, Or.inl ⟨rfl, rfl, rfl⟩⟩
      · exact ⟨c, hc, rfl, Or.inr ⟨rfl, rfl, rfl⟩⟩
    · rintro ⟨c, hc, h0, ⟨h1, h2, h3⟩ | ⟨h1, h2, h3⟩⟩
      · left; refine ⟨c, hc, ?_⟩
        cases v; simp only at h0 h1 h2 h3; subst h0 h1 h2 h3; rfl
      · right; refine ⟨c, hc, ?_⟩
        cases v; simp only at h0 h1 h2 h3; subst h0 h1 h2 h3; rfl
  refine ⟨by unfold volumes; simp; omega, hmem, ?_⟩
  intro v hv
  obtain ⟨c, hc, -, h⟩ := (hmem v).mp hv
  have hh : 0 ≤ v.amt ∧ v.amt ≤ v.amtv := by
    rcases h with ⟨-, h2, h3⟩ | ⟨-, h2, h3⟩
    · rw [h2, h3]; exact ⟨(hs c hc).hxa, (hs c hc).hxx⟩
    · rw [h2, h3]; exact ⟨(hs c hc).hya, (hs c hc).hyy⟩
  unfold Volume.lvg
  by_cases h0 : v.amt = 0
  · rw [if_pos h0]; exact ⟨by simp [h0], fun l hl => by cases hl⟩
  · rw [if_neg h0]
    refine ⟨by simp [h0], fun l hl => ?_⟩
    cases hl
    have hp : 0 < v.amt := lt_of_le_of_ne hh.1 (Ne.symm h0)
    exact ⟨by rw [le_div_iff₀ hp]; linarith [hh.2], by field_simp⟩

theorem sum_filter_volumes (f : Volume K → K) (cs : List (CPC K)) (t : Str) :
    (((volumes (cs.map recOf)).filter fun v => decide (v.tkn = t)).map f).sum =
      ((cs.filter fun c => decide (c.tknb = t)).map fun c => f ⟨c.tknb, c.cid, c.x, c.xAct⟩).sum +
      ((cs.filter fun c => decide (c.tknq = t)).map fun c => f ⟨c.tknq, c.cid, c.y, c.yAct⟩).sum := by
  unfold volumes
  rw [List.map_map, List.map_map, List.filter_append, List.map_append, List.sum_append, List.filter_map, List.filter_map, List.map_map,
    List.map_map]
  rfl

theorem bounds_sum {l : List (Volume K)} (hp : ∀ v ∈ l, 0 < v.amt) {lo hi : K} (h : ∀ v ∈ l, lo ≤ v.amtv / v.amt ∧ v.amtv / v.amt ≤ hi) :
    lo * (l.map Volume.amt).sum ≤ (l.map Volume.amtv).sum ∧ (l.map Volume.amtv).sum ≤ hi * (l.map Volume.amt).sum := by
  induction l with
  | nil => simp
  | cons v l ih =>
    obtain ⟨h1, h2⟩ := ih (fun w hw => hp w (by simp [hw])) (fun w hw => h w (by simp [hw]))
    obtain ⟨h3, h4⟩ := h v (by simp)
    have hv := hp v (by simp)
    rw [le_div_iff₀ hv] at h3
    rw [div_le_iff₀ hv] at h4
    simp only [List.map_cons, List.sum_cons]
    constructor <;> nlinarith

/-- **C131** The line of a token adds up the reserves of the curves with this base token and of those with this quote token, and counts them.
It has a price if the token is ether or a curve of the container trades it for ether. With a price, and if all of these curves have
some of the token, the leverage does not depend on the price and lies between the smallest and largest leverage of the curves. -/
theorem C131_volumeaggr (cc : CC K) (hb : Built cc) (hcc : ∀ c ∈ cc.curves, CPC.Sound c) (cs : List (CPC K)) (t : Str) :
    ∃ a, cc.volumeAggr (cs.map recOf) t = .ok a ∧
      a.amtv = ((cs.filter fun c => decide (c.tknb = t)).map CPC.x).sum + ((cs.filter fun c => decide (c.tknq = t)).map CPC.y).sum ∧
      a.amt = ((cs.filter fun c => decide (c.tknb = t)).map CPC.xAct).sum + ((cs.filter fun c => decide (c.tknq = t)).map CPC.yAct).sum ∧
      a.n = (cs.filter fun c => decide (c.tknb = t)).length + (cs.filter fun c => decide (c.tknq = t)).length ∧
      (a.priceEth = none ↔ t ≠ tknEth ∧ ∀ c ∈ cc.curves, ¬ Trades c t tknEth) ∧
      (t = tknEth → a.priceEth = some 1) ∧
      ((∃ v ∈ volumes (cs.map recOf), v.tkn = t) → (∀ v ∈ volumes (cs.map recOf), v.tkn = t → 0 < v.amt) → a.priceEth ≠ none →
        ∃ l, a.lvg = some l ∧ a.amtv = l * a.amt ∧
          ∀ lo hi, (∀ v ∈ volumes (cs.map recOf), v.tkn = t → lo ≤ v.amtv / v.amt ∧ v.amtv / v.amt ≤ hi) → lo ≤ l ∧ l ≤ hi) := by
  obtain ⟨pr, hpr, hnone, hone, hpos⟩ : ∃ pr, cc.priceEth t = .ok pr ∧ (pr = none ↔ t ≠ tknEth ∧ ∀ c ∈ cc.curves, ¬ Trades c t tknEth) ∧
      (t = tknEth → pr = some 1) ∧ ∀ p, pr = some p → 0 < p := by
    unfold priceEth
    by_cases ht : t = tknEth
    · rw [if_neg (by simpa using ht)]
      exact ⟨_, rfl, by simp [ht], fun _ => rfl, fun p hp => by cases hp; norm_num⟩
    · rw [if_pos ht]
      obtain ⟨h1, h2⟩ := C73_price cc hb hcc t tknEth ht
      by_cases hex : ∃ c ∈ cc.curves, Trades c t tknEth
      · obtain ⟨m, hm, e, -⟩ := h2 hex
        refine ⟨_, e, ?_, fun h => absurd h ht, fun p hp => by cases hp; exact hm⟩
        simp only [reduceCtorEq, false_iff, not_and]
        intro _ h
        obtain ⟨c, hc, h'⟩ := hex
        exact h c hc h'
      · have hno : ∀ c ∈ cc.curves, ¬ Trades c t tknEth := fun c hc h => hex ⟨c, hc, h⟩
        exact ⟨none, h1.mpr hno, by simp only [true_iff]; exact ⟨ht, hno⟩, fun h => absurd h ht, fun p hp => by cases hp⟩
  unfold volumeAggr
  dsimp only
  rw [hpr, Py.ok_bind]
  refine ⟨_, rfl, sum_filter_volumes Volume.amtv cs t, sum_filter_volumes Volume.amt cs t, ?_, hnone, hone, ?_⟩
  · show ((volumes (cs.map recOf)).filter _).length = _
    unfold volumes
    rw [List.map_map, List.map_map, List.filter_append, List.length_append, List.filter_map, List.filter_map, List.length_map,
      List.length_map]
    rfl
  · intro hex hamt hp
    obtain ⟨p, rfl⟩ := Option.ne_none_iff_exists'.mp hp
    have hp := hpos p rfl
    obtain ⟨L, hL⟩ : ∃ L, L = (volumes (cs.map recOf)).filter fun v => decide (v.tkn = t) := ⟨_, rfl⟩
    rw [← hL]
    have hLp : ∀ v ∈ L, 0 < v.amt := by
      intro v hv; rw [hL, List.mem_filter, decide_eq_true_eq] at hv; exact hamt v hv.1 hv.2
    have hs : 0 < (L.map Volume.amt).sum := by
      obtain ⟨v, hv, e⟩ := hex
      have hvL : v ∈ L := by rw [hL, List.mem_filter, decide_eq_true_eq]; exact ⟨hv, e⟩
      refine lt_of_lt_of_le (hLp v hvL) (List.single_le_sum ?_ _ (List.mem_map.mpr ⟨v, hvL, rfl⟩))
      intro x hx
      obtain ⟨w, hw, rfl⟩ := List.mem_map.mp hx
      exact (hLp w hw).le
    refine ⟨(L.map Volume.amtv).sum / (L.map Volume.amt).sum, ?_, ?_, ?_⟩
    · show (if (L.map Volume.amt).sum * p = 0 then none else some ((L.map Volume.amtv).sum * p / ((L.map Volume.amt).sum * p))) = _
      rw [if_neg (mul_pos hs hp).ne']
      congr 1
      field_simp
    · dsimp only; field_simp
    · intro lo hi h
      have hb := bounds_sum hLp (lo := lo) (hi := hi) fun v hv => by
        rw [hL, List.mem_filter, decide_eq_true_eq] at hv; exact h v hv.1 hv.2
      exact ⟨(le_div_iff₀ hs).mpr hb.1, (div_le_iff₀ hs).mpr hb.2⟩

end

/-! ## C131: the relative standard deviation -/

section Real

/-- **C131** The relative standard deviation of the prices of a pair is missing if no curve has the pair; it is not negative, zero exactly if
all these curves quote the same price, and does not change if all prices are multiplied by the same factor. -/
theorem C131_sdpc (cs : List (CPC ℝ)) (hs : ∀ c ∈ cs, CPC.Sound c) (b q : Str) :
    ((pivotSdpc (cs.map recOf)).get? b q = none ↔ ¬ ∃ c ∈ cs, c.tknb = b ∧ c.tknq = q) ∧
    ∀ s, (pivotSdpc (cs.map recOf)).get? b q = some s →
      0 ≤ s ∧ (s = 0 ↔ ∀ c ∈ ofPair cs b q, ∀ d ∈ ofPair cs b q, c.p = d.p) ∧
      ∀ f, 0 < f → AF.sdpc ((ofPair cs b q).map fun c => f * c.p) = s := by
  unfold pivotSdpc
  rw [priceLines_recs, Tbl.pivot_get, group_recs]
  by_cases hg : ofPair cs b q = []
  · rw [if_pos (by rw [hg]; rfl)]
    refine ⟨⟨fun _ => ?_, fun _ => rfl⟩, fun s hs => by cases hs⟩
    rintro ⟨c, hc, h1, h2⟩
    have := mem_ofPair.mpr ⟨hc, h1, h2⟩
    rw [hg] at this; simp at this
  · have hne : (ofPair cs b q).map CPC.p ≠ [] := by simpa using hg
    rw [if_neg hne]
    obtain ⟨c, hc⟩ := List.exists_mem_of_ne_nil _ hg
    have hc' := mem_ofPair.mp hc
    refine ⟨⟨fun h => (by cases h), fun h => absurd ⟨c, hc'⟩ h⟩, ?_⟩
    rintro s hs'
    cases hs'
    have hm : 0 < AF.mean ((ofPair cs b q).map CPC.p) := AF.mean_pos hne fun v hv => by
      obtain ⟨d, hd, rfl⟩ := List.mem_map.mp hv
      exact p_pos (hs d (mem_ofPair.mp hd).1)
    refine ⟨div_nonneg (AF.std_nonneg _) hm.le, ?_, ?_⟩
    · unfold AF.sdpc
      rw [div_eq_zero_iff, or_iff_left hm.ne', AF.std_zero_iff hne]
      simp only [List.mem_map, forall_exists_index, and_imp, forall_apply_eq_imp_iff₂]
    · intro f hf
      unfold AF.sdpc
      rw [show (ofPair cs b q).map (fun c => f * c.p) = ((ofPair cs b q).map CPC.p).map fun v => f * v by rw [List.map_map]; rfl,
        AF.std_scale _ hf.le, AF.mean_scale]
      field_simp

/-- **C131** The aggregated list of prices in numbers: the mean times the number of curves is the sum of the prices, and the percentage of the
deviation, taken of the mean, squares to the mean of the squared deviations; the percentage of the range, taken of the largest price, is the
difference between the largest and the smallest. -/
theorem C131_deviation (cs : List (CPC ℝ)) (hs : ∀ c ∈ cs, CPC.Sound c) (b q : Str) {a : PriceAggr ℝ}
    (ha : priceAggr (cs.map recOf) b q = some a) :
    a.mean * a.count = ((ofPair cs b q).map primPrice).sum ∧
      (a.sdpc100 / 100 * a.mean) ^ 2 * a.count = ((ofPair cs b q).map fun c => (primPrice c - a.mean) ^ 2).sum ∧
      a.rangepc100 / 100 * a.maxv = a.maxv - a.minv ∧ 0 ≤ a.sdpc100 := by
  have hagg := (C131_priceaggr cs hs b q).2 a ha
  have hf : (cs.map recOf).filter (fun r => decide (r.tknb = b) && decide (r.tknq = q)) = (ofPair cs b q).map recOf := by
    rw [List.filter_map]; rfl
  cases hg : ofPair cs b q with
  | nil =>
    have : priceAggr (cs.map recOf) b q = none := by unfold priceAggr; rw [hf, hg]; rfl
    rw [this] at ha; cases ha
  | cons c l =>
    obtain ⟨pps, hpps⟩ : ∃ pps, pps = (c :: l).map primPrice := ⟨_, rfl⟩
    have hv : priceAggr (cs.map recOf) b q = some ⟨primaryOf c, AF.mean pps, pps.length, AF.sdpc100 pps, AF.npMin pps, AF.npMax pps,
        AF.rangepc100 pps⟩ := by
      unfold priceAggr
      rw [hf, hg, List.map_cons]
      dsimp only
      rw [show (recOf c :: l.map recOf).map (fun r => r.pp) = pps by rw [hpps, List.map_cons, List.map_cons, List.map_map]; rfl]
      rfl
    rw [hv] at ha
    obtain rfl := Option.some.inj ha
    dsimp only at hagg ⊢
    have hne : pps ≠ [] := by rw [hpps]; simp
    have hl := AF.length_pos' hne
    have hm : 0 < AF.mean pps := lt_of_lt_of_le hagg.2.2.1 hagg.2.2.2.1
    have hM : 0 < AF.npMax pps := lt_of_lt_of_le hm hagg.2.2.2.2.1
    refine ⟨?_, ?_, ?_, ?_⟩
    · rw [← hpps]
      unfold AF.mean
      exact div_mul_cancel₀ _ hl.ne'
    · have h1 : AF.sdpc100 pps / 100 * AF.mean pps = AF.std pps := by
        unfold AF.sdpc100 AF.sdpc
        field_simp
      rw [h1, AF.std_sq]
      unfold AF.mean
      rw [List.length_map, div_mul_cancel₀ _ hl.ne', hpps, List.map_map]
      rfl
    · unfold AF.rangepc100 AF.rangepct
      rw [if_neg hM.ne']
      field_simp
    · unfold AF.sdpc100 AF.sdpc
      have := AF.std_nonneg pps
      positivity

end Real

/-! ## C131: examples and violations -/

theorem exCC_records : exCC.records = .ok (exCC.curves.map recOf) := (C131_selection exCC exCC_built exCC_sound).1

/-- The tables of three curves, two of which trade the same tokens in opposite directions. -/
example : (pivotBQ (exCC.curves.map recOf)).get? "ETH".toList "USDC".toList = some 1 ∧
    (pivotBQ (exCC.curves.map recOf)).get? "LINK".toList "ETH".toList = some 0 ∧
    (pivotBQ (exCC.curves.map recOf)).get? "ETH".toList "LINK".toList = none ∧
    (pivotBQS (exCC.curves.map recOf)).get? "ETH".toList "USDC".toList = some 2 ∧
    (pivotMean (exCC.curves.map recOf)).get? "LINK".toList "USDC".toList = some 9 ∧
    (pivotMax (exCC.curves.map recOf)).get? "LINK".toList "ETH".toList = some 0 ∧
    priceList (exCC.curves.map recOf) "USDC".toList "ETH".toList (some (.int 1)) = some (1 / 4, 4) ∧
    (volumes (exCC.curves.map recOf)).map (fun v => (v.amtv, v.lvg)) = [(2, some 1), (4, some 1), (1, some 1), (2, some 1), (1, some 1), (9, some 1)] := by
  decide +kernel

/-- The aggregates of several curves of a pair. -/
example : (priceAggr ([pool 1 2 "A/B" none, pool 1 4 "A/B" none, pool 1 1 "B/A" none].map recOf) "A".toList "B".toList).map
    (fun a => (a.primary, a.mean, a.count, a.minv, a.maxv, a.rangepc100)) = some ("A/B".toList, 3, 2, 2, 4, 50) := by
  decide +kernel

example : (exCC.volumeAggr (exCC.curves.map recOf) "USDC".toList).map (fun a => (a.amtv, a.amt, a.n, a.priceEth)) =
    .ok (15, 15, 3, none) := by decide +kernel

/-- C131 fails for the symmetric table: of three curves the one between LINK and USDC is not counted, because LINK is nowhere the quote
token. -/
theorem C131_symmetric_violated : exCC.records = .ok (exCC.curves.map recOf) ∧
    (ofPair exCC.curves "LINK".toList "USDC".toList).length = 1 ∧
    (pivotBQS (exCC.curves.map recOf)).get? "LINK".toList "USDC".toList = some 0 ∧
    (pivotBQS (exCC.curves.map recOf)).get? "USDC".toList "LINK".toList = some 0 :=
  ⟨exCC_records, by decide +kernel⟩

/-! ## C132: statistics -/

section Real

/-- **C132** The statistics of the reserves raise unless there are curves and all of them have the same base and the same quote token. -/
theorem C132_raises {K : Type} [Field K] [LinearOrder K] [PySqrt K] (cs : List (CPC K)) :
    (∃ b q, cs ≠ [] ∧ ∀ c ∈ cs, c.tknb = b ∧ c.tknq = q) ∧ xystats cs = .ok (stats (cs.map CPC.x), stats (cs.map CPC.y)) ∨
      ¬ (∃ b q, cs ≠ [] ∧ ∀ c ∈ cs, c.tknb = b ∧ c.tknq = q) ∧ xystats cs = .error .assertion := by
  have one : ∀ l : List Str, l.dedup.length = 1 ↔ ∃ a, l ≠ [] ∧ ∀ b ∈ l, b = a := by
    intro l
    constructor
    · intro h
      obtain ⟨a, ha⟩ := List.length_eq_one_iff.mp h
      refine ⟨a, fun h0 => by rw [h0] at ha; simp at ha, fun b hb => ?_⟩
      have := List.mem_dedup.mpr hb
      rw [ha] at this
      simpa using this
    · rintro ⟨a, h0, h⟩
      have h1 : ∀ b ∈ l.dedup, b = a := fun b hb => h b (List.mem_dedup.mp hb)
      have h2 := List.nodup_dedup l
      obtain ⟨c, hc⟩ := List.exists_mem_of_ne_nil l h0
      have hc' := List.mem_dedup.mpr hc
      cases hd : l.dedup with
      | nil => rw [hd] at hc'; simp at hc'
      | cons x t =>
        cases t with
        | nil => rfl
        | cons y t =>
          rw [hd] at h1 h2
          have e1 := h1 x (by simp)
          have e2 := h1 y (by simp)
          rw [List.nodup_cons] at h2
          exact absurd (by rw [e1, e2]; simp) h2.1
  by_cases h : ∃ b q, cs ≠ [] ∧ ∀ c ∈ cs, c.tknb = b ∧ c.tknq = q
  · left
    refine ⟨h, ?_⟩
    obtain ⟨b, q, h0, h1⟩ := h
    have hq : (cs.map CPC.tknq).dedup.length = 1 := (one _).mpr ⟨q, by simpa using h0, fun t ht => by
      obtain ⟨c, hc, rfl⟩ := List.mem_map.mp ht; exact (h1 c hc).2⟩
    have hb : (cs.map CPC.tknb).dedup.length = 1 := (one _).mpr ⟨b, by simpa using h0, fun t ht => by
      obtain ⟨c, hc, rfl⟩ := List.mem_map.mp ht; exact (h1 c hc).1⟩
    unfold xystats
    rw [hq, hb]
    simp
  · right
    refine ⟨h, ?_⟩
    unfold xystats
    split
    · rfl
    · rw [if_pos]
      by_contra hc
      rw [not_or, not_not, not_not] at hc
      obtain ⟨q, h0, hq⟩ := (one _).mp hc.1
      obtain ⟨b, -, hb⟩ := (one _).mp hc.2
      exact h ⟨b, q, by simpa using h0, fun c hc => ⟨hb _ (List.mem_map.mpr ⟨c, hc, rfl⟩), hq _ (List.mem_map.mpr ⟨c, hc, rfl⟩)⟩⟩

theorem sum_sq_dev (l : List ℝ) (m : ℝ) :
    (l.map fun v => (v - m) ^ 2).sum = (l.map fun v => v ^ 2).sum - 2 * m * l.sum + (l.length : ℝ) * m ^ 2 := by
  induction l with
  | nil => simp
  | cons a l ih => simp only [List.map_cons, List.sum_cons, List.length_cons, ih]; push_cast; ring

/-- **C132** Of the numbers: the smallest and the largest are among them, the mean is between them, and the standard deviation is not
negative, at most the range, zero exactly if all numbers are equal; its square is the mean of the squares less the square of the mean. -/
theorem C132_stats (l : List ℝ) (h : l ≠ []) :
    (stats l).minv ∈ l ∧ (stats l).maxv ∈ l ∧ (∀ v ∈ l, (stats l).minv ≤ v ∧ v ≤ (stats l).maxv) ∧
      (stats l).minv ≤ (stats l).mean ∧ (stats l).mean ≤ (stats l).maxv ∧
      0 ≤ (stats l).sdev ∧ (stats l).sdev ≤ (stats l).maxv - (stats l).minv ∧
      ((stats l).sdev = 0 ↔ ∀ v ∈ l, ∀ w ∈ l, v = w) ∧
      (stats l).sdev ^ 2 = (l.map fun v => v ^ 2).sum / (l.length : ℝ) - (l.sum / (l.length : ℝ)) ^ 2 := by
  have h1 := AF.npMin_spec h
  have h2 := AF.npMax_spec h
  have h3 := AF.mean_between h
  refine ⟨h1.1, h2.1, fun v hv => ⟨h1.2 v hv, h2.2 v hv⟩, h3.1, h3.2, AF.std_nonneg l, ?_, AF.std_zero_iff h, ?_⟩
  · show AF.std l ≤ AF.npMax l - AF.npMin l
    have hr : 0 ≤ AF.npMax l - AF.npMin l := by linarith [h3.1, h3.2]
    apply le_of_sq_le_sq _ hr |> fun h => h
    rw [AF.std_sq]
    apply AF.mean_le_of (by simpa using h)
    intro x hx
    obtain ⟨v, hv, rfl⟩ := List.mem_map.mp hx
    have := h1.2 v hv
    have := h2.2 v hv
    apply sq_le_sq'
    · linarith [h3.1, h3.2]
    · linarith [h3.1, h3.2]
  · show AF.std l ^ 2 = _
    rw [AF.std_sq]
    have hl := AF.length_pos' h
    unfold AF.mean
    rw [sum_sq_dev, List.length_map]
    field_simp
    ring

/-! ## C132: the matrix of prices -/

theorem estimateRow_spec (cc : CC ℝ) (hs : ∀ c ∈ cc.curves, CPC.Sound c) (q : Str) (bs : List Str) :
    ∃ r, cc.estimateRow q bs = .ok r ∧ r.length = bs.length ∧
      ∀ (j : Nat) b, bs[j]? = some b → ∃ v, r[j]? = some v ∧ cc.priceEstimate b q false = .ok v := by
  induction bs with
  | nil => exact ⟨[], rfl, rfl, fun j b h => by simp at h⟩
  | cons b bs ih =>
    obtain ⟨r, h1, h2, h3⟩ := ih
    obtain ⟨v, hv⟩ : ∃ v, cc.priceEstimate b q false = .ok v := by
      by_cases hbq : b = q
      · exact ⟨some 1, by unfold priceEstimate; rw [if_pos hbq.symm]⟩
      · obtain ⟨e1, e2⟩ := C74_estimate_partial cc hs b q hbq
        by_cases hex : ∃ c ∈ cc.curves, Usable c b q
        · obtain ⟨m, -, e, -⟩ := e2 hex false
          exact ⟨_, e⟩
        · exact ⟨_, (e1 fun c hc h => hex ⟨c, hc, h⟩).2⟩
    refine ⟨v :: r, by rw [estimateRow, hv, Py.ok_bind, h1, Py.ok_bind], by simp [h2], ?_⟩
    intro j b' hj
    cases j with
    | zero => simp only [List.getElem?_cons_zero, Option.some.injEq] at hj; subst hj; exact ⟨v, rfl, hv⟩
    | succ j => rw [List.getElem?_cons_succ] at hj ⊢; exact h3 j b' hj

theorem estimateRows_spec (cc : CC ℝ) (hs : ∀ c ∈ cc.curves, CPC.Sound c) (bs qs : List Str) :
    ∃ m, cc.estimateRows bs qs = .ok m ∧ m.length = qs.length ∧
      ∀ (i : Nat) q, qs[i]? = some q → ∃ r, m[i]? = some r ∧ cc.estimateRow q bs = .ok r := by
  induction qs with
  | nil => exact ⟨[], rfl, rfl, fun j b h => by simp at h⟩
  | cons q qs ih =>
    obtain ⟨m, h1, h2, h3⟩ := ih
    obtain ⟨r, hr, -⟩ := estimateRow_spec cc hs q bs
    refine ⟨r :: m, by rw [estimateRows, hr, Py.ok_bind, h1, Py.ok_bind], by simp [h2], ?_⟩
    intro j q' hj
    cases j with
    | zero => simp only [List.getElem?_cons_zero, Option.some.injEq] at hj; subst hj; exact ⟨r, rfl, hr⟩
    | succ j => rw [List.getElem?_cons_succ] at hj ⊢; exact h3 j q' hj

/-- The price of the pair can be estimated. -/
def HasPrice (cc : CC ℝ) (b q : Str) : Prop := b = q ∨ ∃ c ∈ cc.curves, Usable c b q

theorem estimate_none_iff (cc : CC ℝ) (hs : ∀ c ∈ cc.curves, CPC.Sound c) {b q : Str} {v : Option ℝ}
    (hv : cc.priceEstimate b q false = .ok v) : v = none ↔ ¬ HasPrice cc b q := by
  unfold HasPrice
  by_cases hbq : b = q
  · unfold priceEstimate at hv
    rw [if_pos hbq.symm] at hv
    cases hv
    simp [hbq]
  · obtain ⟨e1, e2⟩ := C74_estimate_partial cc hs b q hbq
    by_cases hex : ∃ c ∈ cc.curves, Usable c b q
    · obtain ⟨m, -, e, -⟩ := e2 hex false
      rw [e] at hv
      cases hv
      simp [hex]
    · rw [(e1 fun c hc h => hex ⟨c, hc, h⟩).2] at hv
      cases hv
      simp [hbq, hex]

/-- **C132** The matrix has a row for each quote token and a column for each base token, in the order given. A cell holds what the estimate of
the single pair returns; it is empty exactly if the price of the pair cannot be estimated, and one if the tokens are the same. -/
theorem C132_matrix (cc : CC ℝ) (hs : ∀ c ∈ cc.curves, CPC.Sound c) (qs bs : List Str) :
    ∃ m, cc.priceEstimates qs bs false false false = .ok (.matrix m) ∧ m.length = qs.length ∧
      ∀ (i j : Nat) q b, qs[i]? = some q → bs[j]? = some b →
        ∃ r v, m[i]? = some r ∧ r.length = bs.length ∧ r[j]? = some v ∧ cc.priceEstimate b q false = .ok v ∧
          (v = none ↔ ¬ HasPrice cc b q) ∧ (b = q → v = some 1) := by
  obtain ⟨m, h1, h2, h3⟩ := estimateRows_spec cc hs bs qs
  refine ⟨m, ?_, h2, ?_⟩
  · unfold priceEstimates
    rw [h1, Py.ok_bind]
    simp [unwrapped]
  · intro i j q b hi hj
    obtain ⟨r, hr, hr'⟩ := h3 i q hi
    obtain ⟨r', e, hl, hc⟩ := estimateRow_spec cc hs q bs
    rw [hr'] at e; cases e
    obtain ⟨v, hv, hv'⟩ := hc j b hj
    refine ⟨r, v, hr, hl, hv, hv', estimate_none_iff cc hs hv', ?_⟩
    rintro rfl
    unfold priceEstimate at hv'
    rw [if_pos rfl] at hv'
    cases hv'; rfl

/-- **C132** A missing price raises, unless that is switched off, and nothing else does; triangulation always raises. A single quote token
gives the row instead of a matrix with one row, unless that is switched off. -/
theorem C132_options (cc : CC ℝ) (hs : ∀ c ∈ cc.curves, CPC.Sound c) (qs bs : List Str) (unwrap rais : Bool) :
    (∀ e, cc.priceEstimates qs bs false unwrap rais = .error e ↔
      e = .value ∧ rais = true ∧ ∃ q ∈ qs, ∃ b ∈ bs, ¬ HasPrice cc b q) ∧
    (∃ e, cc.priceEstimates qs bs true unwrap rais = .error e) ∧
    (∀ m, cc.priceEstimates qs bs false false false = .ok (.matrix m) → (rais = false ∨ ∀ q ∈ qs, ∀ b ∈ bs, HasPrice cc b q) →
      (qs.length = 1 ∧ unwrap = true → ∃ r, m = [r] ∧ cc.priceEstimates qs bs false unwrap rais = .ok (.row r)) ∧
      (¬ (qs.length = 1 ∧ unwrap = true) → cc.priceEstimates qs bs false unwrap rais = .ok (.matrix m))) := by
  obtain ⟨m, h1, h2, h3⟩ := estimateRows_spec cc hs bs qs
  have hany : (m.any (fun r => r.any Option.isNone)) = true ↔ ∃ q ∈ qs, ∃ b ∈ bs, ¬ HasPrice cc b q := by
    simp only [List.any_eq_true, Option.isNone_iff_eq_none]
    constructor
    · rintro ⟨r, hr, v, hv, hn⟩
      subst hn
      obtain ⟨i, hi⟩ := List.mem_iff_getElem?.mp hr
      obtain ⟨hi', -⟩ := List.getElem?_eq_some_iff.mp hi
      have hq : qs[i]? = some (qs[i]'(by omega)) := List.getElem?_eq_getElem _
      obtain ⟨r', hr', hrow⟩ := h3 i _ hq
      rw [hi] at hr'; cases hr'
      obtain ⟨r', e, hl, hc⟩ := estimateRow_spec cc hs qs[i] bs
      rw [hrow] at e; cases e
      obtain ⟨j, hj⟩ := List.mem_iff_getElem?.mp hv
      obtain ⟨hj', -⟩ := List.getElem?_eq_some_iff.mp hj
      have hb : bs[j]? = some (bs[j]'(by omega)) := List.getElem?_eq_getElem _
      obtain ⟨v, hv, hv'⟩ := hc j _ hb
      rw [hj] at hv; cases hv
      exact ⟨qs[i], List.getElem_mem _, bs[j], List.getElem_mem _, (estimate_none_iff cc hs hv').mp rfl⟩
    · rintro ⟨q, hq, b, hb, hn⟩
      obtain ⟨i, hi⟩ := List.mem_iff_getElem?.mp hq
      obtain ⟨j, hj⟩ := List.mem_iff_getElem?.mp hb
      obtain ⟨r, hr, hrow⟩ := h3 i q hi
      obtain ⟨r', e, hl, hc⟩ := estimateRow_spec cc hs q bs
      rw [hrow] at e; cases e
      obtain ⟨v, hv, hv'⟩ := hc j b hj
      exact ⟨r, List.mem_of_getElem? hr, v, List.mem_of_getElem? hv, (estimate_none_iff cc hs hv').mpr hn⟩
  have hval : ∀ u r, cc.priceEstimates qs bs false u r =
      if r && m.any (fun r => r.any Option.isNone) then .error .value
      else .ok (unwrapped u m) := by
    intro u r
    unfold priceEstimates
    rw [h1, Py.ok_bind]
    simp
  refine ⟨?_, ?_, ?_⟩
  · intro e
    rw [hval]
    by_cases hr : (rais && m.any (fun r => r.any Option.isNone)) = true
    · rw [if_pos hr]
      rw [Bool.and_eq_true] at hr
      constructor
      · intro h; cases h; exact ⟨rfl, hr.1, hany.mp hr.2⟩
      · rintro ⟨rfl, -⟩; rfl
    · rw [if_neg hr]
      constructor
      · intro h; cases h
      · rintro ⟨-, h4, h5⟩
        exact absurd (by rw [Bool.and_eq_true]; exact ⟨h4, hany.mpr h5⟩) hr
  · refine ⟨.custom "NotImplementedError", ?_⟩
    unfold priceEstimates
    rw [h1, Py.ok_bind]
    simp
  · intro m' hm' hall
    have e := hval false false
    rw [hm'] at e
    simp only [Bool.false_and, Bool.false_eq_true, if_false, unwrapped] at e
    cases e
    have hno : ¬ (rais && m.any (fun r => r.any Option.isNone)) = true := by
      rw [Bool.and_eq_true]
      rintro ⟨h4, h5⟩
      obtain ⟨q, hq, b, hb, hn⟩ := hany.mp h5
      rcases hall with h | h
      · rw [h] at h4; cases h4
      · exact hn (h q hq b hb)
    rw [hval, if_neg hno]
    constructor
    · rintro ⟨h4, rfl⟩
      obtain ⟨r, rfl⟩ := List.length_eq_one_iff.mp (h2.trans h4)
      exact ⟨r, rfl, rfl⟩
    · intro h4
      unfold unwrapped
      split
      · exact absurd ⟨by rw [← h2]; rfl, rfl⟩ h4
      · rfl

/-- **C132** If the curves agree on the value of every token, the matrix holds the quotients of the values; the prices are then consistent:
going through a third token changes nothing. -/
theorem C132_consistent (cc : CC ℝ) (hs : ∀ c ∈ cc.curves, CPC.Sound c) (val : Str → ℝ) (hval : ∀ t, 0 < val t)
    (hp : ∀ c ∈ cc.curves, c.p = val c.tknb / val c.tknq) (b q : Str) (h : HasPrice cc b q) :
    cc.priceEstimate b q = .ok (some (val b / val q)) := by
  rcases h with rfl | hex
  · unfold priceEstimate
    rw [if_pos rfl, div_self (hval b).ne']
  · by_cases hbq : b = q
    · subst hbq
      unfold priceEstimate
      rw [if_pos rfl, div_self (hval b).ne']
    · refine (C74_agreement cc hs b q hbq (val b / val q) ?_ hex).1
      rintro c hc ⟨-, ht⟩
      unfold dirPrice
      have hv := hval b
      have hw := hval q
      split
      · rename_i h
        rw [hp c hc, h.1, h.2]
      · rename_i h
        rcases ht with ht | ht
        · exact absurd ht h
        · rw [hp c hc, ht.1, ht.2]
          field_simp

/-- Two pools that agree on the values 6, 3 and 1 of three tokens. -/
noncomputable def agreeing : CC ℝ := ofCurves [⟨2, 1, 1, 2, "A/B".toList, some (.int 0), []⟩, ⟨3, 1, 1, 3, "B/C".toList, some (.int 1), []⟩]

example : agreeing.priceEstimate "A".toList "B".toList = .ok (some 2) := by
  obtain ⟨val, hv⟩ : ∃ val : Str → ℝ, val = fun t => if t = "A".toList then 6 else if t = "B".toList then 3 else 1 := ⟨_, rfl⟩
  have hA : val "A".toList = 6 := by rw [hv]; simp
  have hB : val "B".toList = 3 := by rw [hv]; simp
  have hC : val "C".toList = 1 := by rw [hv]; simp
  have hcs : agreeing.curves = [⟨2, 1, 1, 2, "A/B".toList, some (.int 0), []⟩, ⟨3, 1, 1, 3, "B/C".toList, some (.int 1), []⟩] := by
    unfold agreeing
    rw [ofCurves_curves]
    simp
  have key := C132_consistent agreeing (by
      intro c hc
      rw [hcs] at hc
      simp only [List.mem_cons, List.not_mem_nil, or_false] at hc
      rcases hc with rfl | rfl
      · exact ⟨by norm_num, by norm_num, by norm_num, by norm_num, by norm_num, by norm_num [CPC.y], "A".toList, "B".toList, by decide +kernel⟩
      · exact ⟨by norm_num, by norm_num, by norm_num, by norm_num, by norm_num, by norm_num [CPC.y], "B".toList, "C".toList, by decide +kernel⟩)
    val (by
      intro t; rw [hv]; dsimp only
      split
      · norm_num
      · split <;> norm_num) (by
      intro c hc
      rw [hcs] at hc
      simp only [List.mem_cons, List.not_mem_nil, or_false] at hc
      rcases hc with rfl | rfl
      · have e1 : (splitSlash "A/B".toList).getD 0 [] = "A".toList := by decide +kernel
        have e2 : (splitSlash "A/B".toList).getD 1 [] = "B".toList := by decide +kernel
        unfold CPC.tknb CPC.tknq
        rw [e1, e2, hA, hB]
        norm_num [CPC.p, CPC.y]
      · have e1 : (splitSlash "B/C".toList).getD 0 [] = "B".toList := by decide +kernel
        have e2 : (splitSlash "B/C".toList).getD 1 [] = "C".toList := by decide +kernel
        unfold CPC.tknb CPC.tknq
        rw [e1, e2, hB, hC]
        norm_num [CPC.p, CPC.y]) "A".toList "B".toList (Or.inr ⟨_, by rw [hcs]; exact List.mem_cons_self, by
        norm_num [CPC.atBoundary, CPC.atXmin, CPC.atXmax, CPC.xMin, CPC.xMax, CPC.yMin, CPC.y], Or.inl ⟨by unfold CPC.tknb; decide +kernel, by unfold CPC.tknq; decide +kernel⟩⟩)
  rw [key, hA, hB]
  norm_num

end Real

/-- The statistics of two pools, and the matrix of the prices of three tokens. -/
example : (xystats [pool 1 4 "A/B" none, pool 3 8 "A/B" none]).map (fun s => (s.1.mean, s.1.minv, s.1.maxv, s.1.sdev, s.2.mean, s.2.sdev)) =
    .ok (2, 1, 3, 1, 6, 2) ∧ (xystats [pool 1 4 "A/B" none, pool 3 8 "B/A" none]).map (fun s => s.1.mean) = .error .assertion := by
  decide +kernel

def Estimates.toList {K : Type} : Estimates K → List (List (Option K))
  | .matrix m => m
  | .row r => [r]

example : (exCC.priceEstimates (["USDC", "ETH"].map String.toList) (["LINK", "ETH"].map String.toList) false true false).map
      Estimates.toList = .ok [[some 9, some (5 / 2)], [none, some 1]] ∧
    (exCC.priceEstimates (["USDC", "ETH"].map String.toList) (["LINK", "ETH"].map String.toList)).map Estimates.toList = .error .value := by
  decide +kernel

end CC
end Carbon
