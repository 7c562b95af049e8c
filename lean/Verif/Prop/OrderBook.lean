import Mathlib.Algebra.BigOperators.Intervals
import Mathlib.Algebra.Order.Field.Basic
import Mathlib.Tactic.FieldSimp
import Mathlib.Tactic.Linarith
import Mathlib.Tactic.Ring
import Verif.Carbon.Analytics

/-!
# Properties of numerical order books (C102)

A book is given by sizes `s 0, s 1, …` and amounts `t 0, t 1, …`.
-/

namespace Carbon.OrderBook
open Analytics

set_option linter.unusedSectionVars false

variable {K : Type} [Field K] [LinearOrder K] [IsStrictOrderedRing K]

/-! ## Vectors -/

/-- The first `n` values of a sequence as a vector. -/
def vec (n : ℕ) (f : ℕ → K) : List (Flt K) := (List.range n).map fun i : ℕ => Flt.num (f i)

theorem zip_tail {α β : Type} (g : α → α → β) (f : ℕ → α) (n : ℕ) :
    List.zipWith g ((List.range (n + 1)).map f) ((List.range (n + 1)).map f).tail =
      (List.range n).map fun i => g (f i) (f (i + 1)) := by
  apply List.ext_getElem
  · simp
  · intro i h1 h2
    simp

theorem align_map (g : Flt K → Flt K → Flt K) (f1 f2 : ℕ → Flt K) (l : List ℕ) :
    align g (l.map f1) (l.map f2) = l.map fun i => g (f1 i) (f2 i) := by
  induction l with
  | nil => rfl
  | cons a l ih => simp only [List.map_cons, align, ih]

theorem diff_vec (n : ℕ) (f : ℕ → K) : diff (vec (n + 1) f) = vec n fun i => f (i + 1) - f i := by
  unfold diff vec
  rw [zip_tail]
  refine List.map_congr_left fun i _ => ?_
  simp only [Flt.sub, Flt.neg, Flt.add, sub_eq_add_neg]

theorem mid_vec (n : ℕ) (f : ℕ → K) : midpoints (vec (n + 1) f) = vec n fun i => (f i + f (i + 1)) / 2 := by
  unfold midpoints vec
  rw [zip_tail]
  refine List.map_congr_left fun i _ => ?_
  simp only [Flt.mul, Flt.add]
  congr 1
  ring

theorem div_vec (n : ℕ) (f g : ℕ → K) (h : ∀ i < n, g i ≠ 0) :
    align Flt.div (vec n f) (vec n g) = vec n fun i => f i / g i := by
  unfold vec
  rw [align_map]
  refine List.map_congr_left fun i hi => ?_
  simp only [Flt.div, if_neg (h i (List.mem_range.mp hi))]

theorem foldl_num (l : List ℕ) (f : ℕ → K) (a : K) :
    (l.map fun i => Flt.num (f i)).foldl Flt.add (.num a) = .num (a + (l.map f).sum) := by
  induction l generalizing a with
  | nil => simp
  | cons x l ih => simp only [List.map_cons, List.foldl_cons, Flt.add, ih, List.sum_cons, add_assoc]

theorem dot_vec (n : ℕ) (f g : ℕ → K) : vecdot (vec n f) (vec n g) = .ok (.num (∑ i ∈ Finset.range n, f i * g i)) := by
  unfold vecdot
  rw [if_pos (by simp [vec])]
  unfold vec
  rw [List.zipWith_map, List.zipWith_self]
  simp only [Flt.fill, Flt.mul]
  rw [foldl_num, zero_add, Finset.sum_range, List.sum_ofFn.symm]
  congr 3
  apply List.ext_getElem
  · simp
  · intro i h1 h2
    simp

/-! ## Making a book -/

theorem truncate_ok (s1 : List (Flt K)) (xs : List (Flt K)) (hx : ∀ x ∈ xs, x ≠ .nan) (gaps : List (Option (Flt K)))
    (hg : ∀ g ∈ gaps, isnonenan g = true) : truncate s1 (xs.map some ++ gaps) = (s1.take xs.length, xs) := by
  have h1 : (xs.map some).filter (fun x => !isnonenan x) = xs.map some := by
    rw [List.filter_eq_self]
    intro a ha
    obtain ⟨x, hxm, rfl⟩ := List.mem_map.mp ha
    cases x with
    | nan => exact absurd rfl (hx _ hxm)
    | _ => rfl
  have h2 : gaps.filter (fun x => !isnonenan x) = [] := by
    rw [List.filter_eq_nil_iff]
    intro a ha
    simp [hg a ha]
  have h3 : (xs.map some).filterMap id = xs := by simp
  unfold truncate
  rw [List.filter_append, h1, h2, List.append_nil, h3]

/-- **C102** A book made from sizes and amounts whose last amounts are missing has the sizes for which there are amounts, each with
its own amount. Missing: gaps that are not at the end (`C102_gap_violated`). -/
theorem C102_truncate_partial (s : List (Flt K)) (xs : List K) (hs : xs.length ≤ s.length) (gaps : List (Option (Flt K)))
    (hg : ∀ g ∈ gaps, g = none ∨ g = some .nan) (side : BookSide) (hb : side ≠ .other) :
    ∃ b, make s ((xs.map fun x => some (.num x)) ++ gaps) side = .ok b ∧ (b.reverseBook = true ↔ side = .bid) ∧
      b.src.length = b.trg.length ∧ ∀ i (h : i < xs.length), b.src[i]? = s[i]? ∧ b.trg[i]? = some (.num xs[i]) := by
  have ht := truncate_ok s (xs.map Flt.num) (by
    intro x hx
    obtain ⟨y, _, rfl⟩ := List.mem_map.mp hx
    simp) gaps (by
    intro g h
    rcases hg g h with rfl | rfl <;> rfl)
  rw [List.map_map, List.length_map] at ht
  have hl : (s.take xs.length).length = (xs.map Flt.num).length := by simp [hs]
  have hi : ∀ i (h : i < xs.length), (s.take xs.length)[i]? = s[i]? ∧ (xs.map (Flt.num (K := K)))[i]? = some (.num xs[i]) := by
    intro i h
    refine ⟨by rw [List.getElem?_take, if_pos h], by simp [h]⟩
  cases side with
  | other => exact absurd rfl hb
  | ask => exact ⟨_, by unfold make; rw [show (fun x : K => some (Flt.num x)) = some ∘ Flt.num from rfl, ht], by simp, hl, hi⟩
  | bid => exact ⟨_, by unfold make; rw [show (fun x : K => some (Flt.num x)) = some ∘ Flt.num from rfl, ht], by simp, hl, hi⟩

/-- **C102 (violated)** After a missing amount that is not at the end every amount is attributed to the size before its own. -/
theorem C102_gap_violated (n : ℕ) (s t : ℕ → K) (x : K) (side : BookSide) (hb : side ≠ .other) :
    ∃ b, make (vec (n + 2) s) ((List.range n).map (fun i => some (Flt.num (t i))) ++ [none, some (.num x)]) side = .ok b ∧
      b.src = vec (n + 1) s ∧ b.trg[n]? = some (.num x) := by
  have h1 : ((List.range n).map (fun i => some (Flt.num (t i))) ++ [none, some (Flt.num x)]).filter (fun x => !isnonenan x) =
      (List.range n).map (fun i => some (Flt.num (t i))) ++ [some (.num x)] := by
    rw [List.filter_append]
    congr 1
    rw [List.filter_eq_self]
    intro a ha
    obtain ⟨i, _, rfl⟩ := List.mem_map.mp ha
    rfl
  have h2 : ((List.range n).map (fun i => some (Flt.num (t i))) ++ [some (Flt.num x)]).filterMap id = vec n t ++ [.num x] := by
    rw [List.filterMap_append]
    congr 1
    unfold vec
    rw [List.filterMap_map]
    induction List.range n with
    | nil => rfl
    | cons a l ih => simp
  have h3 : truncate (vec (n + 2) s) ((List.range n).map (fun i => some (Flt.num (t i))) ++ [none, some (Flt.num x)]) =
      (vec (n + 1) s, vec n t ++ [.num x]) := by
    unfold truncate
    rw [h1, h2]
    refine Prod.ext ?_ rfl
    dsimp only
    unfold vec
    rw [← List.map_take, List.take_range]
    simp
  have h4 : (vec n t ++ [Flt.num x])[n]? = some (.num x) := by simp [vec]
  cases side with
  | other => exact absurd rfl hb
  | ask => exact ⟨_, by unfold make; rw [h3], rfl, h4⟩
  | bid => exact ⟨_, by unfold make; rw [h3], rfl, h4⟩

/-! ## Prices -/

/-- The book with the given sizes and amounts. -/
def book (n : ℕ) (s t : ℕ → K) (rev : Bool) : OrderBook K := ⟨vec n s, vec n t, rev⟩

/-- **C102** Effective prices are amounts per size, the reversed ones sizes per amount. -/
theorem C102_effective (n : ℕ) (s t : ℕ → K) (rev : Bool) (hs : ∀ i < n, s i ≠ 0) :
    (book n s t rev).prices = vec n (fun i => t i / s i) ∧ (book n s t rev).pricesr false = (book n s t rev).prices ∧
    ((∀ i < n, t i ≠ 0) → (book n s t rev).pricesr true = vec n fun i => s i / t i) := by
  have h : (book n s t rev).prices = vec n (fun i => t i / s i) := div_vec n t s hs
  refine ⟨h, rfl, fun ht => ?_⟩
  unfold pricesr
  rw [if_pos rfl, h]
  unfold reverse vec
  rw [List.map_map]
  refine List.map_congr_left fun i hi => ?_
  have h1 := hs i (List.mem_range.mp hi)
  have h2 := ht i (List.mem_range.mp hi)
  simp only [Function.comp, Flt.div, if_neg (div_ne_zero h2 h1), one_div_div]

theorem marg_eq (n : ℕ) (s t : ℕ → K) (rev : Bool) (hs : ∀ i < n, s (i + 1) ≠ s i) :
    (book (n + 1) s t rev).margPrices = vec n fun i => (t (i + 1) - t i) / (s (i + 1) - s i) := by
  show align Flt.div (diff (vec (n + 1) t)) (diff (vec (n + 1) s)) = _
  rw [diff_vec, diff_vec, div_vec _ _ _ fun i hi => sub_ne_zero.mpr (hs i hi)]

/-- **C102** Marginal prices are those of the additional size: there is one less than there are sizes, and up to every size the
additional sizes times their marginal prices add up to the additional amount. Reversed marginal prices are their reciprocals. -/
theorem C102_marginal (n : ℕ) (s t : ℕ → K) (rev : Bool) (hs : ∀ i < n, s (i + 1) ≠ s i) :
    ∃ m : ℕ → K, (book (n + 1) s t rev).margPrices = vec n m ∧
      (∀ k ≤ n, ∑ i ∈ Finset.range k, m i * (s (i + 1) - s i) = t k - t 0) ∧
      ((∀ i < n, t (i + 1) ≠ t i) → (book (n + 1) s t rev).margPricesr true = vec n fun i => 1 / m i) := by
  refine ⟨_, marg_eq n s t rev hs, ?_, ?_⟩
  · intro k hk
    rw [← Finset.sum_range_sub]
    refine Finset.sum_congr rfl fun i hi => ?_
    exact div_mul_cancel₀ _ (sub_ne_zero.mpr (hs i (lt_of_lt_of_le (Finset.mem_range.mp hi) hk)))
  · intro ht
    unfold margPricesr
    rw [if_pos rfl, marg_eq n s t rev hs]
    unfold reverse vec
    rw [List.map_map]
    refine List.map_congr_left fun i hi => ?_
    have h1 := sub_ne_zero.mpr (hs i (List.mem_range.mp hi))
    have h2 := sub_ne_zero.mpr (ht i (List.mem_range.mp hi))
    simp only [Function.comp, Flt.div, if_neg (div_ne_zero h2 h1)]

/-- **C102** In a book with increasing positive sizes and rising marginal prices, none below the first effective price, the
effective price rises as well and is never above the marginal price of the next size. -/
theorem C102_rising (n : ℕ) (s t m : ℕ → K) (rev : Bool) (h0 : 0 < s 0) (hs : ∀ i < n, s i < s (i + 1))
    (hm : (book (n + 1) s t rev).margPrices = vec n m) (hmm : ∀ i, i + 1 < n → m i ≤ m (i + 1))
    (hfirst : 0 < n → t 0 / s 0 ≤ m 0) :
    ∃ p : ℕ → K, (book (n + 1) s t rev).prices = vec (n + 1) p ∧ ∀ i < n, p i ≤ p (i + 1) ∧ p (i + 1) ≤ m i := by
  have hpos : ∀ i ≤ n, 0 < s i := by
    intro i
    induction i with
    | zero => exact fun _ => h0
    | succ i ih => exact fun hi => (ih (by omega)).trans (hs i (by omega))
  have hme : ∀ i < n, m i = (t (i + 1) - t i) / (s (i + 1) - s i) := by
    rw [marg_eq n s t rev fun i hi => (hs i hi).ne'] at hm
    intro i hi
    have := congrArg (·[i]?) hm
    simp only [vec, List.getElem?_map, List.getElem?_range hi, Option.map_some, Option.some.injEq, Flt.num.injEq] at this
    exact this.symm
  have key : ∀ i < n, t i / s i ≤ m i := by
    intro i
    induction i with
    | zero => exact fun h => hfirst h
    | succ i ih =>
      intro hi
      have h1 := ih (by omega)
      have h2 := hmm i hi
      have h3 := hme i (by omega)
      have p1 := hpos i (by omega)
      have p2 := hpos (i + 1) (by omega)
      have d := sub_pos.mpr (hs i (by omega))
      rw [eq_div_iff d.ne'] at h3
      rw [div_le_iff₀ p1] at h1
      rw [div_le_iff₀ p2]
      nlinarith
  refine ⟨_, (C102_effective (n + 1) s t rev fun i hi => (hpos i (by omega)).ne').1, ?_⟩
  intro i hi
  have h1 := key i hi
  have h3 := hme i hi
  have p1 := hpos i (by omega)
  have p2 := hpos (i + 1) (by omega)
  have d := sub_pos.mpr (hs i hi)
  rw [eq_div_iff d.ne'] at h3
  rw [div_le_iff₀ p1] at h1
  constructor
  · rw [div_le_div_iff₀ p1 p2]
    nlinarith
  · rw [div_le_iff₀ p2]
    nlinarith

/-! ## Liquidity -/

/-- The difference of two neighbouring marginal prices, in the direction of the book. -/
def step (s t : ℕ → K) (rev : Bool) (i : ℕ) : K :=
  (if rev then (-1 : K) else 1) * ((t (i + 2) - t (i + 1)) / (s (i + 2) - s (i + 1)) -
      (t (i + 1) - t i) / (s (i + 1) - s i))

theorem dmarg_eq (n : ℕ) (s t : ℕ → K) (rev : Bool) (hs : ∀ i < n + 1, s (i + 1) ≠ s i) :
    (book (n + 2) s t rev).dmargPrices = vec n (step s t rev) := by
  unfold dmargPrices
  rw [marg_eq (n + 1) s t rev hs, diff_vec]
  cases rev with
  | false => simp [book, vec, step]
  | true =>
    show List.map Flt.neg _ = _
    unfold vec
    rw [List.map_map]
    refine List.map_congr_left fun i _ => ?_
    simp [Flt.neg, step]

theorem liq_eq (n : ℕ) (s t : ℕ → K) (rev : Bool) (hs : ∀ i < n + 1, s (i + 1) ≠ s i) (hd : ∀ i < n, step s t rev i ≠ 0) :
    (book (n + 2) s t rev).obLiquidity = vec n fun i => (t (i + 2) - t i) / 2 / step s t rev i := by
  unfold obLiquidity
  rw [dmarg_eq n s t rev hs]
  show align Flt.div (midpoints (diff (vec (n + 2) t))) _ = _
  rw [diff_vec, mid_vec, div_vec _ _ _ hd]
  unfold vec
  refine List.map_congr_left fun i _ => ?_
  congr 3
  ring

theorem marg_get {n : ℕ} {s t m : ℕ → K} {rev : Bool} (hs : ∀ i < n, s (i + 1) ≠ s i)
    (hm : (book (n + 1) s t rev).margPrices = vec n m) : ∀ i < n, m i = (t (i + 1) - t i) / (s (i + 1) - s i) := by
  rw [marg_eq n s t rev hs] at hm
  intro i hi
  have := congrArg (·[i]?) hm
  simp only [vec, List.getElem?_map, List.getElem?_range hi, Option.map_some, Option.some.injEq, Flt.num.injEq] at this
  exact this.symm

theorem step_eq {n : ℕ} {s t m : ℕ → K} {rev : Bool} (hs : ∀ i < n + 1, s (i + 1) ≠ s i)
    (hm : (book (n + 2) s t rev).margPrices = vec (n + 1) m) (i : ℕ) (hi : i < n) :
    step s t rev i = (if rev then -1 else 1) * (m (i + 1) - m i) := by
  rw [marg_get hs hm i (by omega), marg_get hs hm (i + 1) (by omega), step]

/-- **C102** In a book without jumps of size zero and without constant marginal prices the area under the liquidity over the prices
is the whole amount, up to the first amount and half of the first and the last step; this holds for bids and asks alike. -/
theorem C102_area_partial (n : ℕ) (s t m : ℕ → K) (rev : Bool) (hs : ∀ i < n + 2, s (i + 1) ≠ s i)
    (hm : (book (n + 3) s t rev).margPrices = vec (n + 2) m) (hmm : ∀ i < n + 1, m (i + 1) ≠ m i) :
    vecdot (book (n + 3) s t rev).dmargPrices (book (n + 3) s t rev).obLiquidity =
      .ok (.num (t (n + 2) - t 0 - ((t 1 - t 0) + (t (n + 2) - t (n + 1))) / 2)) := by
  have hd : ∀ i < n + 1, step s t rev i ≠ 0 := by
    intro i hi
    rw [step_eq hs hm i hi]
    exact mul_ne_zero (by split_ifs <;> simp) (sub_ne_zero.mpr (hmm i hi))
  rw [liq_eq (n + 1) s t rev hs hd, dmarg_eq (n + 1) s t rev hs, dot_vec]
  congr 2
  have e : ∀ i ∈ Finset.range (n + 1), step s t rev i * ((t (i + 2) - t i) / 2 / step s t rev i) =
      (t (i + 1 + 1) + t (i + 1)) / 2 - (t (i + 1) + t i) / 2 := by
    intro i hi
    rw [mul_div_cancel₀ _ (hd i (Finset.mem_range.mp hi))]
    ring
  rw [Finset.sum_congr rfl e, Finset.sum_range_sub (fun i => (t (i + 1) + t i) / 2)]
  ring

/-- **C102** Ask books with rising and bid books with falling marginal prices have non-negative liquidity if the amounts grow; it is
reported at increasing (bids: decreasing) prices, each strictly between two neighbouring marginal prices. -/
theorem C102_liquidity (n : ℕ) (s t m : ℕ → K) (rev : Bool) (hs : ∀ i < n + 1, s (i + 1) ≠ s i)
    (ht : ∀ i < n + 1, t i ≤ t (i + 1)) (hm : (book (n + 2) s t rev).margPrices = vec (n + 1) m)
    (hmm : ∀ i < n, if rev then m (i + 1) < m i else m i < m (i + 1)) :
    ∃ l q : ℕ → K, (book (n + 2) s t rev).obLiquidity = vec n l ∧ (book (n + 2) s t rev).obPrices = vec n q ∧
      ∀ i < n, 0 ≤ l i ∧ (if rev then m (i + 1) < q i ∧ q i < m i else m i < q i ∧ q i < m (i + 1)) ∧
        (i + 1 < n → if rev then q (i + 1) < q i else q i < q (i + 1)) := by
  have hd : ∀ i < n, 0 < step s t rev i := by
    intro i hi
    rw [step_eq hs hm i hi]
    have := hmm i hi
    cases rev with
    | true =>
      simp only [if_true] at this ⊢
      linarith
    | false =>
      simp only [Bool.false_eq_true, if_false] at this ⊢
      linarith
  refine ⟨_, fun i => (m i + m (i + 1)) / 2, liq_eq n s t rev hs fun i hi => (hd i hi).ne', ?_, ?_⟩
  · unfold obPrices
    rw [hm, mid_vec]
  · intro i hi
    refine ⟨?_, ?_, ?_⟩
    · refine div_nonneg ?_ (hd i hi).le
      have h1 := ht i (by omega)
      have h2 := ht (i + 1) (by omega)
      linarith
    · have := hmm i hi
      cases rev with
      | true =>
        simp only [if_true] at this ⊢
        constructor <;> linarith
      | false =>
        simp only [Bool.false_eq_true, if_false] at this ⊢
        constructor <;> linarith
    · intro hi2
      have h1 := hmm i hi
      have h2 := hmm (i + 1) hi2
      cases rev with
      | true =>
        simp only [if_true] at h1 h2 ⊢
        linarith
      | false =>
        simp only [Bool.false_eq_true, if_false] at h1 h2 ⊢
        linarith

theorem nan_foldl (l : List (Flt K)) : l.foldl Flt.add .nan = .nan := by
  induction l with
  | nil => rfl
  | cons a l ih => rw [List.foldl_cons]; cases a <;> exact ih

theorem add_nan (a : Flt K) : a.add .nan = .nan := by cases a <;> rfl

theorem foldl_nan (l : List (Flt K)) (a : Flt K) (h : Flt.nan ∈ l) : l.foldl Flt.add a = .nan := by
  induction l generalizing a with
  | nil => cases h
  | cons x l ih =>
    rw [List.foldl_cons]
    rcases List.mem_cons.mp h with rfl | h
    · rw [add_nan, nan_foldl]
    · exact ih _ h

/-- **C102 (violated)** A single pair of equal neighbouring marginal prices, as of every order with one price, makes the area NaN. -/
theorem C102_area_violated (n : ℕ) (s t m : ℕ → K) (rev : Bool) (hs : ∀ i < n + 1, s (i + 1) ≠ s i)
    (ht : ∀ i < n + 1, t i < t (i + 1)) (hm : (book (n + 2) s t rev).margPrices = vec (n + 1) m)
    (i : ℕ) (hi : i < n) (hmm : m (i + 1) = m i) :
    vecdot (book (n + 2) s t rev).dmargPrices (book (n + 2) s t rev).obLiquidity = .ok .nan := by
  have hl : (book (n + 2) s t rev).obLiquidity =
      (List.range n).map fun i => (Flt.num ((t (i + 1) - t i + (t (i + 1 + 1) - t (i + 1))) / 2)).div (.num (step s t rev i)) := by
    unfold obLiquidity
    rw [dmarg_eq n s t rev hs]
    show align Flt.div (midpoints (diff (vec (n + 2) t))) _ = _
    rw [diff_vec, mid_vec]
    unfold vec
    rw [align_map]
  rw [hl, dmarg_eq n s t rev hs]
  unfold vecdot vec
  rw [if_pos (by simp), List.zipWith_map, List.zipWith_self]
  congr 1
  refine foldl_nan _ _ (List.mem_map.mpr ⟨i, List.mem_range.mpr hi, ?_⟩)
  have hz : step s t rev i = 0 := by rw [step_eq hs hm i hi, hmm, sub_self, mul_zero]
  have hp : 0 < (t (i + 1) - t i + (t (i + 1 + 1) - t (i + 1))) / 2 := by
    have h1 := ht i (by omega)
    have h2 := ht (i + 1) (by omega)
    linarith
  rw [hz]
  simp only [Flt.div, if_true, Flt.scaled, if_neg hp.ne', if_pos hp, Flt.fill, Flt.mul]

/-- A series with gaps. -/
def gapped (n : ℕ) (f : ℕ → Option K) : List (Flt K) := (List.range n).map fun i => (f i).elim .nan .num

/-- **C102** In a product of two series a gap on either side counts as zero; series of different lengths are refused. -/
theorem C102_dot (n : ℕ) (f g : ℕ → Option K) :
    vecdot (gapped n f) (gapped n g) = .ok (.num (∑ i ∈ Finset.range n, (f i).getD 0 * (g i).getD 0)) ∧
    ∀ v w : List (Flt K), v.length ≠ w.length → vecdot v w = .error .value := by
  constructor
  · rw [← dot_vec n (fun i => (f i).getD 0) (fun i => (g i).getD 0)]
    unfold vecdot gapped vec
    rw [if_pos (by simp), if_pos (by simp), List.zipWith_map, List.zipWith_self, List.zipWith_map, List.zipWith_self]
    congr 3
    funext i
    dsimp only
    cases f i <;> cases g i <;> rfl
  · intro v w h
    unfold vecdot
    rw [if_neg h]

theorem align_get (f : Flt K → Flt K → Flt K) (v w : List (Flt K)) :
    (align f v w).length = max v.length w.length ∧
    ∀ i < max v.length w.length, (align f v w)[i]? = some (f (v[i]?.getD .nan) (w[i]?.getD .nan)) := by
  induction v generalizing w with
  | nil =>
    refine ⟨by simp [align], fun i hi => ?_⟩
    have hi : i < w.length := by simpa using hi
    simp [align, hi]
  | cons x v ih =>
    cases w with
    | nil =>
      refine ⟨by simp [align], fun i hi => ?_⟩
      have hi : i < (x :: v).length := by simpa using hi
      show ((x :: v).map fun x => f x .nan)[i]? = _
      rw [List.getElem?_map, List.getElem?_eq_getElem hi]
      simp
    | cons y w =>
      obtain ⟨h1, h2⟩ := ih w
      refine ⟨by simp only [align, List.length_cons, h1]; omega, fun i hi => ?_⟩
      cases i with
      | zero => simp [align]
      | succ i =>
        have : i < max v.length w.length := by simp only [List.length_cons] at hi; omega
        simpa [align] using h2 i this

/-- **C102** A book whose two columns differ in length has as many prices as the longer one has entries, without a number where one entry is
missing. -/
theorem C102_lengths (b : OrderBook K) :
    b.prices.length = max b.trg.length b.src.length ∧
    ∀ i < max b.trg.length b.src.length, min b.trg.length b.src.length ≤ i → b.prices[i]? = some .nan := by
  obtain ⟨h1, h2⟩ := align_get Flt.div b.trg b.src
  refine ⟨h1, fun i hi hm => ?_⟩
  show (align Flt.div b.trg b.src)[i]? = _
  rw [h2 i hi]
  rcases le_total b.trg.length b.src.length with h | h
  · rw [min_eq_left h] at hm
    rw [List.getElem?_eq_none hm]
    cases (b.src[i]?.getD .nan) <;> rfl
  · rw [min_eq_right h] at hm
    rw [List.getElem?_eq_none hm]
    cases (b.trg[i]?.getD .nan) <;> rfl

example : vecdot [.num (2 : ℚ), .nan, .num 3] [.num 5, .num 7, .nan] = .ok (.num 10) ∧ vecdot [.num (2 : ℚ)] [.num 1, .num 2] = .error .value := by
  decide +kernel

/-! ## Grids of sizes -/

/-- **C102** A grid of sizes has one point more than intervals; inside it is equidistant from zero, it begins with `eps` and ends at
`(1 - eps2) xmax`, and it increases if both are small compared to an interval. Missing: `eps` is 0.0001 for every maximum
(`C102_grid_violated`). -/
theorem C102_grid_partial (xmax eps eps2 : K) (n : ℕ) (hn : 0 < n) :
    (linspace0 xmax n eps eps2).length = n + 1 ∧ (linspace0 xmax n eps eps2)[0]? = some eps ∧
    (linspace0 xmax n eps eps2)[n]? = some ((1 - eps2) * xmax) ∧
    (∀ i, 0 < i → i < n → (linspace0 xmax n eps eps2)[i]? = some (i * xmax / n)) ∧
    (0 < xmax → eps < xmax / n → eps2 < 1 / n → 2 ≤ n → (linspace0 xmax n eps eps2).IsChain (· < ·)) := by
  have hl : (linspace0 xmax n eps eps2).length = n + 1 := by simp [linspace0]
  have h0 : (linspace0 xmax n eps eps2)[0]? = some eps := by
    simp [linspace0, hn.ne']
  have hlast : (linspace0 xmax n eps eps2)[n]? = some ((1 - eps2) * xmax) := by
    simp [linspace0]
  have hmid : ∀ i, 0 < i → i < n → (linspace0 xmax n eps eps2)[i]? = some (i * xmax / n) := by
    intro i h1 h2
    simp only [linspace0, List.getElem?_set, h2.ne', h1.ne, if_false, hn.ne', List.getElem?_map,
      List.getElem?_range (by omega : i < n + 1), Option.map_some, mul_div_assoc]
  refine ⟨hl, h0, hlast, hmid, fun hx he he2 h2 => ?_⟩
  have hnK : (0 : K) < n := Nat.cast_pos.mpr hn
  rw [List.isChain_iff_getElem]
  intro i hi
  rw [hl] at hi
  have g : ∀ j (hj : j < (linspace0 xmax n eps eps2).length) v, (linspace0 xmax n eps eps2)[j]? = some v →
      (linspace0 xmax n eps eps2)[j] = v := by
    intro j hj v h
    rw [List.getElem?_eq_getElem hj] at h
    exact Option.some.inj h
  have lastlt : ∀ j : ℕ, j + 1 ≤ n → (j : K) * xmax / n < (1 - eps2) * xmax := by
    intro j hj
    have h1 : (j : K) + 1 ≤ n := by exact_mod_cast hj
    have h3 : (j : K) / n ≤ 1 - 1 / n := by
      rw [div_le_iff₀ hnK, sub_mul, one_mul, one_div_mul_cancel hnK.ne']
      linarith
    have h4 : (j : K) / n < 1 - eps2 := by linarith
    calc (j : K) * xmax / n = (j : K) / n * xmax := by ring
      _ < _ := mul_lt_mul_of_pos_right h4 hx
  by_cases hi0 : i = 0
  · subst hi0
    rw [g 0 _ _ h0]
    rw [g 1 _ _ (hmid 1 one_pos (by omega))]
    simpa using he
  · rw [g i _ _ (hmid i (by omega) (by omega))]
    by_cases hin : i + 1 = n
    · rw [g (i + 1) _ _ (by rw [hin]; exact hlast)]
      exact lastlt i (by omega)
    · rw [g (i + 1) _ _ (hmid (i + 1) (by omega) (by omega))]
      push_cast
      rw [div_lt_div_iff_of_pos_right hnK]
      exact mul_lt_mul_of_pos_right (by linarith) hx

/-- **C102 (violated)** For every small maximum the grid does not increase: its first point lies beyond the second. -/
theorem C102_grid_violated (xmax : K) (n : ℕ) (hn : 2 ≤ n) (hx : xmax / n < 1 / 10000) :
    ∃ a b, (linspace0 xmax n)[0]? = some a ∧ (linspace0 xmax n)[1]? = some b ∧ b < a := by
  obtain ⟨_, h0, _, h1, _⟩ := C102_grid_partial xmax (1 / 10000) (1 / 100000) n (by omega)
  exact ⟨_, _, h0, h1 1 one_pos (by omega), by simpa using hx⟩

/-! ## Examples -/

example : (make [.num 1, .num 2, .num 3] [some (.num (10 : ℚ)), none, some (.num 40)]) =
    .ok ⟨[.num 1, .num 2], [.num 10, .num 40], false⟩ := by decide +kernel

/-- Sizes 1, 2, 3, 4 and amounts 1, 4, 9, 16. -/
def sample (rev : Bool) : OrderBook ℚ := book 4 (fun i => i + 1) (fun i => (i + 1) ^ 2) rev

example : (sample false).prices = [.num 1, .num 2, .num 3, .num 4] ∧ (sample false).margPrices = [.num 3, .num 5, .num 7] ∧
    (sample false).dmargPrices = [.num 2, .num 2] ∧ (sample false).obLiquidity = [.num 2, .num 3] ∧
    (sample false).obPrices = [.num 4, .num 6] ∧
    vecdot (sample false).dmargPrices (sample false).obLiquidity = .ok (.num 10) ∧
    (sample true).dmargPrices = [.num (-2), .num (-2)] ∧ (sample true).obLiquidity = [.num (-2), .num (-3)] := by decide +kernel

example : vecdot (book 4 (fun i => (i : ℚ) + 1) (fun i => 2 * (i + 1)) false).dmargPrices
    (book 4 (fun i => (i : ℚ) + 1) (fun i => 2 * (i + 1)) false).obLiquidity = .ok .nan := by decide +kernel

example : linspace0 (10 : ℚ) 2 = [1 / 10000, 5, 99999 / 10000] ∧ linspace0 (1 / 10000 : ℚ) 2 = [1 / 10000, 1 / 20000, 99999 / 1000000000] := by
  decide +kernel

end Carbon.OrderBook
