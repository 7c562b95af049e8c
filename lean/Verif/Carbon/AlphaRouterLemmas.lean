import Verif.Carbon.AlphaRouter
import Mathlib.Tactic.Linarith
import Mathlib.Algebra.Order.BigOperators.Group.Finset
import Mathlib.Algebra.BigOperators.Group.Finset.Basic
import Mathlib.Algebra.Order.Field.Basic
import Mathlib.Data.List.Sort

/-!
# Lemmas on the order selector of the alpha router
-/

set_option linter.unusedSectionVars false

namespace Carbon.AlphaRouter

section
variable {K : Type} [Field K] [LinearOrder K] [IsStrictOrderedRing K]

theorem enumFrom_length {α : Type} (j : Nat) (l : List α) : (enumFrom j l).length = l.length := by
  induction l generalizing j with
  | nil => rfl
  | cons a l ih => simp [enumFrom, ih]

theorem enumFrom_snd {α : Type} (j : Nat) (l : List α) : (enumFrom j l).map Prod.snd = l := by
  induction l generalizing j with
  | nil => rfl
  | cons a l ih => simp [enumFrom, ih]

theorem enumFrom_fst {α : Type} (j : Nat) (l : List α) : (enumFrom j l).map Prod.fst = List.range' j l.length := by
  induction l generalizing j with
  | nil => rfl
  | cons a l ih => simp [enumFrom, ih, List.range'_succ]

theorem enumFrom_get {α : Type} (j : Nat) (l : List α) (i : Nat) : (enumFrom j l)[i]? = (l[i]?).map fun a => (j + i, a) := by
  induction l generalizing j i with
  | nil => simp [enumFrom]
  | cons a l ih =>
    cases i with
    | zero => simp [enumFrom]
    | succ i => simp only [enumFrom, List.getElem?_cons_succ, ih]; congr 1; funext b; simp; omega

theorem mem_enumFrom {α : Type} {j : Nat} {l : List α} {p : Nat × α} (h : p ∈ enumFrom j l) :
    j ≤ p.1 ∧ l[p.1 - j]? = some p.2 := by
  obtain ⟨i, hi⟩ := List.mem_iff_getElem?.mp h
  rw [enumFrom_get] at hi
  obtain ⟨a, ha, e⟩ := Option.map_eq_some_iff.mp hi
  subst e
  simp [ha]

theorem getI_enumFrom (j : Nat) (l : List K) (m : Nat) (a : K) (h : l[m]? = some a) :
    getI (enumFrom j l) (j + m) = .ok (j + m, a) := by
  have : (enumFrom j l).find? (fun p => p.1 == j + m) = some (j + m, a) := by
    induction l generalizing j m with
    | nil => simp at h
    | cons b l ih =>
      cases m with
      | zero => simp at h; subst h; simp [enumFrom]
      | succ m =>
        simp only [enumFrom, List.find?_cons]
        rw [show (j == j + (m + 1)) = false by simp]
        have := ih (j + 1) m (by simpa using h)
        rw [show j + 1 + m = j + (m + 1) by omega] at this
        exact this
  unfold getI; rw [this]

theorem foldl_min (l : List (Nat × K)) (a : Nat × K) :
    l.foldl (fun m x => if x.2 < m.2 then x else m) a ∈ a :: l ∧
      ∀ b ∈ a :: l, (l.foldl (fun m x => if x.2 < m.2 then x else m) a).2 ≤ b.2 := by
  induction l generalizing a with
  | nil => simp
  | cons c l ih =>
    rw [List.foldl_cons]
    obtain ⟨h1, h2⟩ := ih (if c.2 < a.2 then c else a)
    generalize List.foldl (fun m x => if x.2 < m.2 then x else m) (if c.2 < a.2 then c else a) l = r at h1 h2 ⊢
    have h0 := h2 _ List.mem_cons_self
    have hc : (if c.2 < a.2 then c else a) ∈ [a, c] := by split <;> simp
    have hle : (if c.2 < a.2 then c else a).2 ≤ a.2 ∧ (if c.2 < a.2 then c else a).2 ≤ c.2 := by
      split
      · exact ⟨le_of_lt (by assumption), le_rfl⟩
      · exact ⟨le_rfl, not_lt.mp (by assumption)⟩
    refine ⟨?_, ?_⟩
    · rcases List.mem_cons.mp h1 with h | h
      · rw [h]; simp only [List.mem_cons, List.not_mem_nil, or_false] at hc ⊢; tauto
      · simp [h]
    · intro b hb
      simp only [List.mem_cons] at hb
      rcases hb with rfl | rfl | hb
      · exact h0.trans hle.1
      · exact h0.trans hle.2
      · exact h2 b (by simp [hb])

theorem minItem_ok {l : List (Nat × K)} (h : l ≠ []) : ∃ m, minItem l = .ok m ∧ m ∈ l ∧ ∀ b ∈ l, m.2 ≤ b.2 := by
  cases l with
  | nil => exact absurd rfl h
  | cons a l => exact ⟨_, rfl, foldl_min l a⟩

theorem foldl_max (l : List (Nat × K)) (a : K) :
    a ≤ l.foldl (fun m x => if m < x.2 then x.2 else m) a ∧
      ∀ b ∈ l, b.2 ≤ l.foldl (fun m x => if m < x.2 then x.2 else m) a := by
  induction l generalizing a with
  | nil => simp
  | cons c l ih =>
    rw [List.foldl_cons]
    obtain ⟨h1, h2⟩ := ih (if a < c.2 then c.2 else a)
    have hle : a ≤ (if a < c.2 then c.2 else a) ∧ c.2 ≤ (if a < c.2 then c.2 else a) := by
      split
      · exact ⟨le_of_lt (by assumption), le_rfl⟩
      · exact ⟨le_rfl, not_lt.mp (by assumption)⟩
    refine ⟨hle.1.trans h1, ?_⟩
    intro b hb
    rcases List.mem_cons.mp hb with rfl | hb
    · exact hle.2.trans h1
    · exact h2 b hb

theorem maxVal_ok {l : List (Nat × K)} (h : l ≠ []) : ∃ m, maxVal l = .ok m ∧ ∀ b ∈ l, b.2 ≤ m := by
  cases l with
  | nil => exact absurd rfl h
  | cons a l =>
    refine ⟨_, rfl, ?_⟩
    intro b hb
    rcases List.mem_cons.mp hb with rfl | hb
    · exact (foldl_max l b.2).1
    · exact (foldl_max l a.2).2 b hb

/-- If every value of `T` is at least every value of `B`, the sum of `T` is the sum of the largest values. -/
theorem top_sum {T B L : List K} (hp : List.Perm (T ++ B) L) (hd : ∀ t ∈ T, ∀ b ∈ B, b ≤ t) :
    T.sum = ((L.insertionSort (· ≥ ·)).take T.length).sum := by
  have e : L.insertionSort (· ≥ ·) = T.insertionSort (· ≥ ·) ++ B.insertionSort (· ≥ ·) := by
    apply List.Perm.eq_of_pairwise' (r := (· ≥ ·)) (List.pairwise_insertionSort _ _)
    · rw [List.pairwise_append]
      refine ⟨List.pairwise_insertionSort _ _, List.pairwise_insertionSort _ _, ?_⟩
      intro a ha b hb
      exact hd a ((List.perm_insertionSort _ _).mem_iff.mp ha) b ((List.perm_insertionSort _ _).mem_iff.mp hb)
    · exact (List.perm_insertionSort _ _).trans (hp.symm.trans
        ((List.perm_insertionSort _ _).symm.append (List.perm_insertionSort _ _).symm))
  rw [e]
  have hl : (T.insertionSort (· ≥ ·)).length = T.length := List.length_insertionSort _ _
  rw [← hl, List.take_left, (List.perm_insertionSort _ T).sum_eq]

/-- The value at a position. -/
def at' (numbers : List K) (i : Nat) : K := numbers.getD i 0

/-- No choice of at most `num` positions has more than the sum of the `num` largest values. -/
theorem choice_le (numbers : List K) (h0 : ∀ v ∈ numbers, 0 ≤ v) (num : Nat) (c : List Nat) (hc : c.Nodup)
    (hr : ∀ i ∈ c, i < numbers.length) (hl : c.length ≤ num) :
    (c.map (at' numbers)).sum ≤ ((numbers.insertionSort (· ≥ ·)).take num).sum := by
  set P := (enumFrom 0 numbers).insertionSort (fun a b : Nat × K => a.2 ≥ b.2) with hP
  have hPp : List.Perm P (enumFrom 0 numbers) := List.perm_insertionSort _ _
  have hmem : ∀ p ∈ P, p.1 < numbers.length ∧ p.2 = at' numbers p.1 := by
    intro p hp
    have := (mem_enumFrom (hPp.mem_iff.mp hp)).2
    simp only [Nat.sub_zero] at this
    refine ⟨(List.getElem?_eq_some_iff.mp this).1, ?_⟩
    simp [at', List.getD, this]
  have hfst : List.Perm (P.map Prod.fst) (List.range numbers.length) := by
    have := hPp.map Prod.fst
    rwa [enumFrom_fst, ← List.range_eq_range'] at this
  have hnd : (P.map Prod.fst).Nodup := hfst.nodup_iff.mpr List.nodup_range
  have hsort : P.Pairwise (fun a b : Nat × K => a.2 ≥ b.2) := by
    have : Std.Total (fun a b : Nat × K => a.2 ≥ b.2) := ⟨fun a b => le_total b.2 a.2⟩
    have : IsTrans (Nat × K) (fun a b : Nat × K => a.2 ≥ b.2) := ⟨fun a b c h1 h2 => le_trans h2 h1⟩
    exact List.pairwise_insertionSort _ _
  -- the sum of the largest values is the sum over the first entries of `P`
  have hsum : ((numbers.insertionSort (· ≥ ·)).take num).sum = ((P.take num).map Prod.snd).sum := by
    have e : numbers.insertionSort (· ≥ ·) = P.map Prod.snd := by
      apply List.Perm.eq_of_pairwise' (r := (· ≥ ·)) (List.pairwise_insertionSort _ _)
      · rw [List.pairwise_map]; exact hsort
      · refine (List.perm_insertionSort _ _).trans ?_
        have := (hPp.map Prod.snd).symm
        rwa [enumFrom_snd] at this
    rw [e, List.map_take]
  rw [hsum]
  set T := (P.take num).map Prod.fst with hT
  have hTn : T.Nodup := by
    rw [hT, List.map_take]; exact hnd.sublist (List.take_sublist _ _)
  have eT : ((P.take num).map Prod.snd).sum = (T.map (at' numbers)).sum := by
    rw [hT, List.map_map]
    congr 1
    apply List.map_congr_left
    intro p hp
    exact (hmem p (List.mem_of_mem_take hp)).2
  rw [eT]
  rw [← List.sum_toFinset _ hc, ← List.sum_toFinset _ hTn]
  have hTlen : T.length = min num numbers.length := by
    rw [hT, List.length_map, List.length_take, hPp.length_eq, enumFrom_length]
  have hcl : c.length ≤ numbers.length := by
    have : c ⊆ List.range numbers.length := fun i hi => List.mem_range.mpr (hr i hi)
    have := (hc.subperm this).length_le
    simpa using this
  -- values outside the first entries are not larger than those inside
  have hdom : ∀ i ∈ c.toFinset \ T.toFinset, ∀ t ∈ T.toFinset \ c.toFinset, at' numbers i ≤ at' numbers t := by
    intro i hi t ht
    simp only [Finset.mem_sdiff, List.mem_toFinset] at hi ht
    obtain ⟨p, hp, rfl⟩ := List.mem_map.mp ht.1
    have hi' : i ∈ P.map Prod.fst := hfst.mem_iff.mpr (List.mem_range.mpr (hr i hi.1))
    obtain ⟨q, hq, rfl⟩ := List.mem_map.mp hi'
    have hqd : q ∈ P.drop num := by
      rw [← List.take_append_drop num P, List.mem_append] at hq
      rcases hq with h | h
      · exact absurd (List.mem_map_of_mem h) hi.2
      · exact h
    rw [← List.take_append_drop num P, List.pairwise_append] at hsort
    have := hsort.2.2 p hp q hqd
    rw [← (hmem q (List.mem_of_mem_drop hqd)).2, ← (hmem p (List.mem_of_mem_take hp)).2]
    exact this
  have hcard : (c.toFinset \ T.toFinset).card ≤ (T.toFinset \ c.toFinset).card := by
    have h1 := Finset.card_sdiff_add_card_inter c.toFinset T.toFinset
    have h2 := Finset.card_sdiff_add_card_inter T.toFinset c.toFinset
    rw [Finset.inter_comm] at h2
    rw [List.toFinset_card_of_nodup hc] at h1
    rw [List.toFinset_card_of_nodup hTn] at h2
    omega
  have key : ∑ i ∈ c.toFinset \ T.toFinset, at' numbers i ≤ ∑ i ∈ T.toFinset \ c.toFinset, at' numbers i := by
    by_cases he : (c.toFinset \ T.toFinset).Nonempty
    · obtain ⟨i, hi, hmax⟩ := Finset.exists_max_image _ (at' numbers) he
      have hi0 : 0 ≤ at' numbers i := by
        simp only [Finset.mem_sdiff, List.mem_toFinset] at hi
        have := hr i hi.1
        simp only [at', List.getD, List.getElem?_eq_getElem this, Option.getD_some]
        exact h0 _ (List.getElem_mem this)
      calc ∑ i ∈ c.toFinset \ T.toFinset, at' numbers i
          ≤ (c.toFinset \ T.toFinset).card • at' numbers i := Finset.sum_le_card_nsmul _ _ _ hmax
        _ ≤ (T.toFinset \ c.toFinset).card • at' numbers i := nsmul_le_nsmul_left hi0 hcard
        _ ≤ _ := Finset.card_nsmul_le_sum _ _ _ fun t ht => hdom i hi t ht
    · rw [Finset.not_nonempty_iff_eq_empty] at he
      rw [he, Finset.sum_empty]
      apply Finset.sum_nonneg
      intro t ht
      simp only [Finset.mem_sdiff, List.mem_toFinset] at ht
      obtain ⟨p, hp, rfl⟩ := List.mem_map.mp ht.1
      have := (hmem p (List.mem_of_mem_take hp)).1
      simp only [at', List.getD, List.getElem?_eq_getElem this, Option.getD_some]
      exact h0 _ (List.getElem_mem this)
  have a1 := Finset.sum_inter_add_sum_sdiff c.toFinset T.toFinset (at' numbers)
  have a2 := Finset.sum_inter_add_sum_sdiff T.toFinset c.toFinset (at' numbers)
  rw [Finset.inter_comm] at a2
  linarith

theorem checks_ok {threshold maxFill : K} {tl : List (Nat × K)} {num : Nat} (hn : (tl.map Prod.fst).Nodup)
    (hl : tl.length ≤ num) (h : threshold ≤ maxFill → threshold ≤ sumMe tl) (h' : ¬ threshold ≤ maxFill → sumMe tl = maxFill) :
    assertionChecks (decide (threshold ≤ maxFill)) (sumMe tl) threshold maxFill tl num = .ok () := by
  unfold assertionChecks
  rw [if_neg (by simpa using h), if_neg (by simpa using h'), if_neg]
  rintro ⟨h1, h2⟩
  rw [hn.dedup, List.length_map] at h2
  omega

theorem subperm_map {α β : Type} {f : α → β} {l m : List α} (h : List.Subperm l m) : List.Subperm (l.map f) (m.map f) := by
  obtain ⟨l', hp, hs⟩ := h
  exact ⟨l'.map f, hp.map f, hs.map f⟩

theorem subperm_nodup {α : Type} {l m : List α} (h : List.Subperm l m) (hm : m.Nodup) : l.Nodup := by
  obtain ⟨l', hp, hs⟩ := h
  exact hp.nodup_iff.mp (hm.sublist hs)

/-- The loop ends at one of the first two exits. -/
theorem selLoop_ok (numbers : List K) (threshold mx : K) (num : Nat) (hnum : 1 ≤ num) (h0 : ∀ v ∈ numbers, 0 ≤ v)
    (maxFill : K) (hmf : maxFill = ((numbers.insertionSort (· ≥ ·)).take num).sum) (hmx : ∀ v ∈ numbers, v ≤ mx)
    (l : List K) : ∀ (j : Nat) (T D : List (Nat × K)), numbers.drop j = l → l ≠ [] →
      List.Perm (T ++ D) ((enumFrom 0 numbers).take (j + num)) → (∀ t ∈ T, ∀ b ∈ D, b.2 ≤ t.2) →
      T.length = min num numbers.length →
      ∃ R, selLoop numbers.length threshold maxFill mx (decide (threshold ≤ maxFill)) num (enumFrom j l) T =
          .ok (some (R.map Prod.fst)) ∧ List.Subperm R (enumFrom 0 numbers) ∧ R.length = min num numbers.length ∧
        (threshold ≤ maxFill → threshold ≤ sumMe R) ∧ (¬ threshold ≤ maxFill → sumMe R = maxFill) ∧
        (threshold ≤ sumMe T → R = T) := by
  induction l with
  | nil => intro _ _ _ _ h; exact absurd rfl h
  | cons v l ih =>
    intro j T D hdrop _ hperm hdom hlen
    have hsub : List.Subperm T (enumFrom 0 numbers) :=
      (List.Sublist.subperm (List.sublist_append_left T D)).trans
        (hperm.subperm.trans (List.take_sublist _ _).subperm)
    have hnd : (T.map Prod.fst).Nodup := by
      have h1 : List.Subperm (T.map Prod.fst) ((enumFrom 0 numbers).map Prod.fst) := subperm_map hsub
      rw [enumFrom_fst] at h1
      exact subperm_nodup h1 List.nodup_range'
    have hTl : T.length ≤ num := by rw [hlen]; exact min_le_left _ _
    -- when `T` dominates everything else, its sum is the maximal one
    have htop : ∀ B, List.Perm (T ++ B) (enumFrom 0 numbers) → (∀ t ∈ T, ∀ b ∈ B, b.2 ≤ t.2) → sumMe T = maxFill := by
      intro B hB hd
      have hp : List.Perm (T.map Prod.snd ++ B.map Prod.snd) numbers := by
        have := hB.map Prod.snd
        rwa [List.map_append, enumFrom_snd] at this
      have := top_sum hp (by
        intro t ht b hb
        obtain ⟨t', ht', rfl⟩ := List.mem_map.mp ht
        obtain ⟨b', hb', rfl⟩ := List.mem_map.mp hb
        exact hd t' ht' b' hb')
      rw [sumMe, this, hmf, List.length_map, hlen]
      by_cases hle : num ≤ numbers.length
      · rw [min_eq_left hle]
      · rw [min_eq_right (by omega), List.take_of_length_le (by rw [List.length_insertionSort]),
          List.take_of_length_le (by rw [List.length_insertionSort]; omega)]
    have exitOk : (threshold ≤ maxFill → threshold ≤ sumMe T) → (¬ threshold ≤ maxFill → sumMe T = maxFill) →
        (do assertionChecks (decide (threshold ≤ maxFill)) (sumMe T) threshold maxFill T num
            .ok (some (T.map Prod.fst)) : Py (Option (List Nat))) = .ok (some (T.map Prod.fst)) := by
      intro h h'
      rw [checks_ok hnd hTl h h']; rfl
    simp only [enumFrom, selLoop]
    by_cases h1 : decide (threshold ≤ maxFill) = false ∧ sumMe T = maxFill
    · rw [if_pos h1]
      have hn : ¬ threshold ≤ maxFill := by simpa using h1.1
      exact ⟨T, exitOk (fun h => absurd h hn) (fun _ => h1.2), hsub, hlen, fun h => absurd h hn, fun _ => h1.2, fun _ => rfl⟩
    rw [if_neg h1]
    by_cases h2 : threshold ≤ sumMe T
    · rw [if_pos h2]
      have hm : threshold ≤ maxFill := by
        have := choice_le numbers h0 num (T.map Prod.fst) hnd (by
          intro i hi
          obtain ⟨p, hp, rfl⟩ := List.mem_map.mp hi
          have := (mem_enumFrom (hsub.subset hp)).2
          simpa using (List.getElem?_eq_some_iff.mp this).1) (by simpa using hTl)
        rw [List.map_map, ← hmf] at this
        refine h2.trans (le_trans (le_of_eq ?_) this)
        unfold sumMe
        congr 1
        apply List.map_congr_left
        intro p hp
        have := (mem_enumFrom (hsub.subset hp)).2
        simp only [Nat.sub_zero] at this
        simp [at', List.getD, this]
      exact ⟨T, exitOk (fun _ => h2) (fun h => absurd hm h), hsub, hlen, fun _ => h2, fun h => absurd hm h, fun _ => rfl⟩
    rw [if_neg h2]
    -- not done yet: `T` is not maximal
    have hne : sumMe T ≠ maxFill := by
      intro e
      by_cases hf : threshold ≤ maxFill
      · exact h2 (by rw [e]; exact hf)
      · exact h1 ⟨by simpa using hf, e⟩
    have hjl : j + num < numbers.length := by
      by_contra hge
      apply hne
      refine htop D ?_ hdom
      rwa [List.take_of_length_le (by rw [enumFrom_length]; omega)] at hperm
    rw [if_pos hjl]
    have hTne : T ≠ [] := by
      intro e
      have := congrArg List.length e
      rw [hlen, List.length_nil] at this
      omega
    obtain ⟨m, em, hmT, hmin⟩ := minItem_ok hTne
    obtain ⟨a, ha⟩ : ∃ a, numbers[j + num]? = some a := ⟨_, List.getElem?_eq_getElem hjl⟩
    have hget : getI ((j, v) :: enumFrom (j + 1) l) (j + num) = .ok (j + num, a) := by
      have := getI_enumFrom j (v :: l) num a (by rw [← hdrop, List.getElem?_drop]; exact ha)
      exact this
    rw [em, Py.ok_bind, hget, Py.ok_bind]
    have hmx' : ¬ mx ≤ m.2 := by
      intro hle
      apply hne
      refine htop (D ++ (enumFrom 0 numbers).drop (j + num)) ?_ ?_
      · rw [← List.append_assoc]
        have := hperm.append_right ((enumFrom 0 numbers).drop (j + num))
        rwa [List.take_append_drop] at this
      · intro t ht b hb
        rcases List.mem_append.mp hb with hb | hb
        · exact hdom t ht b hb
        · have hbv : b.2 ∈ numbers := by
            have := (mem_enumFrom (List.mem_of_mem_drop hb)).2
            exact List.mem_of_getElem? this
          exact (hmx _ hbv).trans (hle.trans (hmin t ht))
    rw [if_neg hmx']
    have htake : (enumFrom 0 numbers).take (j + 1 + num) = (enumFrom 0 numbers).take (j + num) ++ [(j + num, a)] := by
      rw [show j + 1 + num = j + num + 1 by omega, List.take_add_one, enumFrom_get, ha]
      simp
    have hdrop' : numbers.drop (j + 1) = l := by
      rw [← List.drop_drop, hdrop]; rfl
    have hl' : l ≠ [] := by
      intro e
      rw [e] at hdrop'
      have := congrArg List.length hdrop'
      simp at this
      omega
    by_cases h3 : m.2 < a
    · rw [if_pos h3]
      have hpe : List.Perm (m :: T.erase m) T := (List.perm_cons_erase hmT).symm
      obtain ⟨R, e1, e2, e3, e4, e5, _⟩ := ih (j + 1) (T.erase m ++ [(j + num, a)]) (m :: D) hdrop' hl' (by
          rw [htake]
          have h1 : List.Perm (T.erase m ++ [(j + num, a)] ++ (m :: D)) ((m :: T.erase m) ++ D ++ [(j + num, a)]) := by
            rw [List.perm_iff_count]; intro q; simp only [List.count_append, List.count_cons, List.count_nil]; omega
          exact h1.trans (((hpe.append_right D).trans hperm).append_right _)) (by
          intro t ht b hb
          rcases List.mem_append.mp ht with ht | ht
          · have ht' := List.mem_of_mem_erase ht
            rcases List.mem_cons.mp hb with hb | hb
            · rw [hb]; exact hmin t ht'
            · exact hdom t ht' b hb
          · simp only [List.mem_singleton] at ht
            subst ht
            rcases List.mem_cons.mp hb with rfl | hb
            · exact h3.le
            · exact (hdom m hmT b hb).trans h3.le) (by
          have := hpe.length_eq
          simp only [List.length_cons] at this
          simp only [List.length_append, List.length_cons, List.length_nil]
          omega)
      exact ⟨R, e1, e2, e3, e4, e5, fun h => absurd h h2⟩
    · rw [if_neg h3]
      obtain ⟨R, e1, e2, e3, e4, e5, e6⟩ := ih (j + 1) T ((j + num, a) :: D) hdrop' hl' (by
          rw [htake]
          have h1 : List.Perm (T ++ ((j + num, a) :: D)) (T ++ D ++ [(j + num, a)]) := by
            rw [List.perm_iff_count]; intro q; simp only [List.count_append, List.count_cons, List.count_nil]; omega
          exact h1.trans (hperm.append_right _)) (by
          intro t ht b hb
          rcases List.mem_cons.mp hb with rfl | hb
          · exact (not_lt.mp h3).trans (hmin t ht)
          · exact hdom t ht b hb) hlen
      exact ⟨R, e1, e2, e3, e4, e5, e6⟩

/-- The selector: distinct positions, as many as asked for if there are so many, and either the threshold is reached or
no choice of as many positions has more. If the first positions reach the threshold, they are chosen. -/
theorem selector_ok (numbers : List K) (hne : numbers ≠ []) (h0 : ∀ v ∈ numbers, 0 ≤ v) (threshold : K) (num : Nat)
    (hnum : 1 ≤ num) :
    ∃ l, selector numbers threshold num = .ok (some l) ∧ l.Nodup ∧ (∀ i ∈ l, i < numbers.length) ∧
      l.length = min num numbers.length ∧
      (∀ c : List Nat, c.Nodup → (∀ i ∈ c, i < numbers.length) → c.length ≤ num →
        threshold ≤ (l.map (at' numbers)).sum ∨ (c.map (at' numbers)).sum ≤ (l.map (at' numbers)).sum) ∧
      (threshold ≤ (numbers.take num).sum → l = List.range (min num numbers.length)) := by
  unfold selector
  have hne' : enumFrom 0 numbers ≠ [] := by
    intro e; apply hne
    have := congrArg List.length e
    rw [enumFrom_length] at this
    exact List.length_eq_zero_iff.mp this
  obtain ⟨mx, emx, hmx⟩ := maxVal_ok hne'
  obtain ⟨R, e1, e2, e3, e4, e5, e6⟩ := selLoop_ok numbers threshold mx num hnum h0 _ rfl (by
      intro v hv
      rw [← enumFrom_snd 0 numbers] at hv
      obtain ⟨p, hp, rfl⟩ := List.mem_map.mp hv
      exact hmx p hp) numbers 0 ((enumFrom 0 numbers).take num) [] rfl hne (by simp) (by simp) (by
      rw [List.length_take, enumFrom_length])
  have hat : ∀ p ∈ R, at' numbers p.1 = p.2 ∧ p.1 < numbers.length := by
    intro p hp
    have := (mem_enumFrom (e2.subset hp)).2
    simp only [Nat.sub_zero] at this
    exact ⟨by simp [at', List.getD, this], (List.getElem?_eq_some_iff.mp this).1⟩
  have hsum : ((R.map Prod.fst).map (at' numbers)).sum = sumMe R := by
    rw [List.map_map]; unfold sumMe; congr 1
    exact List.map_congr_left fun p hp => (hat p hp).1
  refine ⟨R.map Prod.fst, ?_, ?_, ?_, ?_, ?_, ?_⟩
  · simp only [emx, Py.ok_bind]; exact e1
  · have h1 : List.Subperm (R.map Prod.fst) ((enumFrom 0 numbers).map Prod.fst) := subperm_map e2
    rw [enumFrom_fst] at h1
    exact subperm_nodup h1 List.nodup_range'
  · intro i hi
    obtain ⟨p, hp, rfl⟩ := List.mem_map.mp hi
    exact (hat p hp).2
  · rw [List.length_map, e3]
  · intro c hc hr hl
    rw [hsum]
    by_cases hf : threshold ≤ ((numbers.insertionSort (· ≥ ·)).take num).sum
    · exact Or.inl (e4 hf)
    · right
      rw [e5 hf]
      exact choice_le numbers h0 num c hc hr hl
  · intro h
    rw [e6 (by unfold sumMe; rw [List.map_take, enumFrom_snd]; exact h), List.map_take, enumFrom_fst]
    rw [← List.range_eq_range', List.take_range]
end

end Carbon.AlphaRouter
