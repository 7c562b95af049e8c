import Mathlib.Data.List.Rotate
import Mathlib.Data.List.Nodup
import Verif.Tools.ArbGraph

/-!
# Properties of cycles

C48: iterating a cycle from any entry point. C78: which cycles are subcycles of another.
-/

namespace Carbon

namespace Arb

namespace Cycle

variable {α : Type}

theorem iter_ok {data : List α} (h : data ≠ []) (c : Nat) (ix : Int) :
    iter data c ix = .ok ((List.range c).map fun j : Nat =>
      data[((ix + 1 + j) % (data.length : Int)).toNat]'(by
        have hp : (0 : Int) < data.length := by exact_mod_cast List.length_pos_iff.2 h
        have h1 := Int.emod_nonneg (ix + 1 + j) hp.ne'
        have h2 := Int.emod_lt_of_pos (ix + 1 + j) hp
        omega)) := by
  have hp : (0 : Int) < data.length := by exact_mod_cast List.length_pos_iff.2 h
  have hn : data.length ≠ 0 := by omega
  induction c generalizing ix with
  | zero => rfl
  | succ c ih =>
    have h1 := Int.emod_nonneg (ix + 1) hp.ne'
    have h2 := Int.emod_lt_of_pos (ix + 1) hp
    have hlt : ((ix + 1) % (data.length : Int)).toNat < data.length := by omega
    rw [iter, if_neg hn]
    dsimp only
    rw [List.getElem?_eq_getElem hlt]
    dsimp only
    rw [ih, Py.ok_bind]
    congr 1
    rw [List.range_succ_eq_map, List.map_cons, List.map_map]
    simp only [Nat.cast_zero, add_zero, List.cons.injEq, true_and]
    apply List.map_congr_left
    intro j _
    simp only [Function.comp]
    congr 2
    push_cast
    rw [← Int.emod_add_emod (ix + 1)]
    have : (ix + 1) % (data.length : Int) + 1 + j = (ix + 1) % (data.length : Int) + (j + 1) := by ring
    rw [this, Int.emod_add_emod]

/-- C48: iterating from any start index, positive or negative, yields every item of the cycle once, in cyclic order from the entry
point, and then the entry point again. -/
theorem C48_items {data : List α} (h : data ≠ []) (start : Int) :
    ∃ (first : α) (rest : List α), items data start = .ok (first :: rest ++ [first]) ∧
      data[(start % (data.length : Int)).toNat]? = some first ∧
      first :: rest = data.rotate (start % (data.length : Int)).toNat := by
  have hp : (0 : Int) < data.length := by exact_mod_cast List.length_pos_iff.2 h
  have h1 := Int.emod_nonneg start hp.ne'
  have h2 := Int.emod_lt_of_pos start hp
  obtain ⟨k, hk⟩ : ∃ k : Nat, start % (data.length : Int) = k := ⟨_, (Int.toNat_of_nonneg h1).symm⟩
  have hkl : k < data.length := by omega
  have key : ∀ j : Nat, ((start - 1 + 1 + j) % (data.length : Int)).toNat = (k + j) % data.length := by
    intro j
    rw [sub_add_cancel, ← Int.emod_add_emod, hk]
    norm_cast
  have hrot : data.rotate k = (List.range data.length).map fun j : Nat =>
      data[(k + j) % data.length]'(Nat.mod_lt _ (by omega)) := by
    apply List.ext_getElem
    · simp
    · intro i h3 h4
      rw [List.getElem_rotate, List.getElem_map, List.getElem_range]
      congr 2
      ring
  have hitems : items data start = .ok (data.rotate k ++ [data[k]]) := by
    unfold items
    rw [iter_ok h, List.range_succ, List.map_append, hrot]
    congr 2
    · apply List.map_congr_left
      intro j _
      congr 1
      exact key j
    · simp only [List.map_cons, List.map_nil, List.cons.injEq, and_true]
      congr 1
      rw [key, Nat.add_mod_right, Nat.mod_eq_of_lt hkl]
  have hne : data.rotate k ≠ [] := by
    intro hc
    have := congrArg List.length hc
    simp at this
    exact h this
  obtain ⟨first, rest, hfr⟩ := List.exists_cons_of_ne_nil hne
  have hf : first = data[k] := by
    have h0 : (data.rotate k)[0]? = some first := by rw [hfr]; rfl
    rw [List.getElem?_eq_getElem (by simp; omega), List.getElem_rotate] at h0
    have := Option.some.inj h0
    rw [← this]
    congr 1
    rw [Nat.zero_add, Nat.mod_eq_of_lt hkl]
  refine ⟨first, rest, ?_, ?_, ?_⟩
  · rw [hitems, hfr, hf]
  · rw [hk, Int.toNat_natCast, List.getElem?_eq_getElem hkl, hf]
  · rw [hk, Int.toNat_natCast, hfr]

example : items [10, 20, 30] 4 = .ok [20, 30, 10, 20] := by decide
example : items [10, 20, 30] (-1) = .ok [30, 10, 20, 30] := by decide

/-- C48: an empty cycle cannot be iterated. -/
theorem C48_empty (start : Int) : items ([] : List α) start = .error .zeroDiv ∧ pairs ([] : List α) start = .error .zeroDiv :=
  ⟨rfl, rfl⟩

theorem zip_close (a : α) (l : List α) : (a :: l ++ [a]).zip (a :: l ++ [a]).tail = (a :: l).zip ((a :: l).rotate 1) := by
  have h : (a :: l).rotate 1 = l ++ [a] := by simp
  have h2 : (a :: l ++ [a]).tail = (l ++ [a]) ++ [] := by simp
  rw [h, h2, List.zip_append (by simp)]
  simp

/-- C48: the pairs from any entry point are the steps of the closed walk, each item with its successor and the last with the first,
in cyclic order from the entry point. -/
theorem C48_pairs {data : List α} (h : data ≠ []) (start : Int) :
    pairs data start = .ok ((data.zip (data.rotate 1)).rotate (start % (data.length : Int)).toNat) := by
  obtain ⟨a, l, hi, -, hr⟩ := C48_items h start
  unfold pairs
  rw [hi, Py.ok_bind, zip_close, hr]
  congr 1
  rw [List.rotate_rotate, Nat.add_comm, ← List.rotate_rotate]
  exact (List.zipWith_rotate_distrib _ _ _ _ (by simp)).symm

/-- C48: there are as many pairs as items, and two entry points give the same pairs up to order. -/
theorem C48_pairs_all {data : List α} (h : data ≠ []) (s t : Int) :
    ∃ p q, pairs data s = .ok p ∧ pairs data t = .ok q ∧ p.length = data.length ∧ p.Perm q := by
  refine ⟨_, _, C48_pairs h s, C48_pairs h t, by simp, ?_⟩
  exact (List.rotate_perm _ _).trans (List.rotate_perm _ _).symm

example : pairs [10, 20, 30] 5 = .ok [(30, 10), (10, 20), (20, 30)] := by decide

/-- C48: starting from a value that is in the cycle yields that value first. -/
theorem C48_start [DecidableEq α] {data : List α} {v : α} (h : v ∈ data) :
    ∃ i rest, startOf data v = .ok i ∧ items data i = .ok (v :: rest ++ [v]) ∧ (v :: rest).Perm data := by
  have hne : data ≠ [] := List.ne_nil_of_mem h
  have hs : startOf data v = .ok (data.idxOf v : Int) := by
    unfold startOf
    have : data.findIdx? (· == v) = some (data.idxOf v) := by
      rw [List.findIdx?_eq_some_iff_findIdx_eq]
      exact ⟨List.idxOf_lt_length_iff.2 h, rfl⟩
    rw [this]
  obtain ⟨a, l, hi, hg, hr⟩ := C48_items hne (data.idxOf v : Int)
  have hlt := List.idxOf_lt_length_iff.2 h
  have hmod : ((data.idxOf v : Int) % (data.length : Int)).toNat = data.idxOf v := by
    norm_cast
    rw [Int.toNat_natCast]
    exact Nat.mod_eq_of_lt hlt
  have ha : a = v := by
    rw [hmod, List.getElem?_eq_getElem hlt, List.getElem_idxOf hlt] at hg
    exact (Option.some.inj hg).symm
  subst ha
  exact ⟨_, l, hs, hi, hr ▸ List.rotate_perm _ _⟩

/-- C48: a value outside the cycle is rejected. -/
theorem C48_start_missing [DecidableEq α] {data : List α} {v : α} (h : v ∉ data) : startOf data v = .error .value := by
  unfold startOf
  have : data.findIdx? (· == v) = none := by
    rw [List.findIdx?_eq_none_iff]
    intro x hx
    simp only [beq_eq_false_iff_ne, ne_eq]
    rintro rfl
    exact h hx
  rw [this]

example : startOf [10, 20, 30] 20 = .ok 1 := by decide
example : startOf [10, 20, 30] 25 = .error .value := by decide

/-- C48 fails for the slash-separated pairs: `pairs_s` ignores its start argument. -/
theorem C48_names_violated : ∃ (data : List Str) (start : Int) (p : List (Str × Str)),
    pairs data start = .ok p ∧ pairsS id data start ≠ .ok (p.map fun q => q.1 ++ '/' :: q.2) :=
  ⟨["A".toList, "B".toList], 1, [("B".toList, "A".toList), ("A".toList, "B".toList)], by decide, by decide⟩

/-- C48: without start argument the slash-separated pairs are the names of the pairs. -/
theorem C48_names_partial {data : List α} (h : data ≠ []) (name : α → Str) :
    pairsS name data = .ok ((data.zip (data.rotate 1)).map fun p => name p.1 ++ '/' :: name p.2) := by
  unfold pairsS
  rw [C48_pairs h, Py.ok_bind]
  simp

/-! ## C78: subcycles -/

/-- The loop decides whether the first list is a subsequence of the second. -/
theorem subLoop_iff [DecidableEq α] (a b : List α) : subLoop a b = true ↔ a.Sublist b := by
  induction b generalizing a with
  | nil => cases a <;> simp [subLoop]
  | cons y ys ih =>
    cases a with
    | nil => simp [subLoop]
    | cons x xs =>
      unfold subLoop
      by_cases h : y = x
      · subst h
        simp [ih]
      · rw [if_neg (by simpa using h), ih]
        constructor
        · exact fun hs => hs.cons _
        · intro hs
          cases hs with
          | cons _ hs => exact hs
          | cons_cons _ _ => exact absurd rfl h

/-- Being contained, in cyclic order, in a cycle. -/
def CyclicSub (a b : List α) : Prop := ∃ k, a.Sublist (b.rotate k)

theorem CyclicSub.rotate_right {a b : List α} (h : CyclicSub a b) (k : Nat) : CyclicSub a (b.rotate k) := by
  obtain ⟨j, hj⟩ := h
  by_cases hb : b = []
  · subst hb; exact ⟨0, by simpa using hj⟩
  obtain ⟨i, hi⟩ : ∃ i, (b.rotate k).rotate i = b.rotate j := by
    have : (b.rotate k) ~r (b.rotate j) :=
      (List.IsRotated.symm ⟨k, rfl⟩ : (b.rotate k) ~r b).trans ⟨j, rfl⟩
    exact this
  exact ⟨i, hi ▸ hj⟩

theorem CyclicSub.rotate_left {a b : List α} (h : CyclicSub a b) (k : Nat) : CyclicSub (a.rotate k) b := by
  induction k with
  | zero => simpa using h
  | succ k ih =>
    rw [← List.rotate_rotate]
    generalize a.rotate k = a at ih
    obtain ⟨j, hj⟩ := ih
    cases a with
    | nil => exact ⟨0, by simp⟩
    | cons x xs =>
      obtain ⟨p, q, hpq, hx⟩ : ∃ p q, b.rotate j = p ++ x :: q ∧ xs.Sublist q := by
        rw [List.cons_sublist_iff] at hj
        obtain ⟨r₁, r₂, hr, hm, hs⟩ := hj
        obtain ⟨u, v, rfl⟩ := List.append_of_mem hm
        exact ⟨u, v ++ r₂, by simp [hr], hs.trans (List.sublist_append_right _ _)⟩
      refine ⟨j + (p.length + 1), ?_⟩
      rw [← List.rotate_rotate, hpq]
      have : (p ++ x :: q).rotate (p.length + 1) = q ++ (p ++ [x]) := by
        have : p ++ x :: q = (p ++ [x]) ++ q := by simp
        rw [this, show p.length + 1 = (p ++ [x]).length by simp, List.rotate_append_length_eq]
      rw [this]
      simp only [List.rotate_cons_succ, List.rotate_zero]
      exact hx.append (List.sublist_append_right _ _)

/-- The closing repetition of the entry point makes no difference. -/
theorem closed_sublist {x : α} {a b : List α} : (x :: a ++ [x]).Sublist (x :: b ++ [x]) ↔ (x :: a).Sublist (x :: b) := by
  constructor
  · intro hs
    have h1 : (a ++ [x]).Sublist (b ++ [x]) := by simpa using hs
    have h2 : a.Sublist b := by
      have := (List.reverse_sublist.2 h1)
      simp only [List.reverse_append, List.reverse_cons, List.reverse_nil, List.nil_append, List.singleton_append] at this
      have := List.cons_sublist_cons.1 this
      exact List.reverse_sublist.1 this
    exact h2.cons_cons x
  · exact fun hs => hs.append (List.Sublist.refl _)

theorem rotated_head_unique {x : α} {r s : List α} (hn : (x :: r).Nodup) (h : (x :: r) ~r (x :: s)) : r = s := by
  obtain ⟨i, hi⟩ := h
  have hlt : i % (x :: r).length < (x :: r).length := Nat.mod_lt _ (by simp)
  have h0 : ((x :: r).rotate i)[0]? = some x := by rw [hi]; rfl
  rw [List.getElem?_eq_getElem (by simp), List.getElem_rotate] at h0
  have h1 : (x :: r)[i % (x :: r).length] = (x :: r)[0] := by
    have := Option.some.inj h0
    simpa using this
  have h2 : i % (x :: r).length = 0 := (List.Nodup.getElem_inj_iff hn).1 h1
  rw [← List.rotate_mod, h2, List.rotate_zero] at hi
  exact (List.cons.inj hi).2

/-- C78: for a cycle without repeated items, another one is its subcycle exactly if all items of that occur in it in the same cyclic
order, wherever either list happens to begin. -/
theorem C78_subcycle [DecidableEq α] {a b : List α} (ha : a ≠ []) (hb : b.Nodup) :
    ∃ r, isSubcycleOf a b = .ok r ∧ (r = true ↔ CyclicSub a b) := by
  unfold isSubcycleOf
  by_cases hlen : b.length < a.length
  · refine ⟨false, by rw [if_pos hlen], ?_⟩
    simp only [Bool.false_eq_true, false_iff]
    rintro ⟨k, hk⟩
    have := hk.length_le
    simp at this
    omega
  rw [if_neg hlen]
  obtain ⟨x, as, rfl⟩ := List.exists_cons_of_ne_nil ha
  simp only [List.head?_cons]
  by_cases hx : x ∈ b
  swap
  · refine ⟨false, by rw [C48_start_missing hx], ?_⟩
    simp only [Bool.false_eq_true, false_iff]
    rintro ⟨k, hk⟩
    exact hx (List.mem_rotate.1 (hk.subset (by simp)))
  obtain ⟨i, rest, hi, hit, -⟩ := C48_start hx
  obtain ⟨x', rest', hit', -, hr'⟩ := C48_items (List.ne_nil_of_mem hx) i
  rw [hit] at hit'
  have he := Except.ok.inj hit'
  have hxr : x :: rest = b.rotate (i % (b.length : Int)).toNat := by
    rw [← hr']
    exact List.append_inj_left' he (by simp)
  obtain ⟨y, ys, hs, -, hy⟩ := C48_items (List.cons_ne_nil x as) 0
  have hy' : y :: ys = x :: as := by simpa using hy
  obtain ⟨rfl, rfl⟩ := List.cons.inj hy'
  refine ⟨_, by rw [hi]; dsimp only; rw [hit, Py.ok_bind, hs, Py.ok_bind], ?_⟩
  rw [subLoop_iff, closed_sublist]
  constructor
  · intro h
    exact ⟨_, hxr ▸ h⟩
  · rintro ⟨k, hk⟩
    obtain ⟨p, q, hpq, hsub⟩ : ∃ p q, b.rotate k = p ++ y :: q ∧ ys.Sublist q := by
      rw [List.cons_sublist_iff] at hk
      obtain ⟨r₁, r₂, hr, hm, hs⟩ := hk
      obtain ⟨u, v, rfl⟩ := List.append_of_mem hm
      exact ⟨u, v ++ r₂, by simp [hr], hs.trans (List.sublist_append_right _ _)⟩
    have hrot : (y :: rest) ~r (y :: (q ++ p)) := by
      have h1 : b ~r (y :: rest) := ⟨_, hxr.symm⟩
      have h2 : b ~r (p ++ y :: q) := ⟨k, hpq⟩
      have h3 : (p ++ y :: q) ~r (y :: q ++ p) := List.isRotated_append
      exact h1.symm.trans (h2.trans h3)
    have hn : (y :: rest).Nodup := by rw [hxr]; exact List.nodup_rotate.2 hb
    rw [rotated_head_unique hn hrot]
    exact (hsub.trans (List.sublist_append_left _ _)).cons_cons y

/-- C78: a cycle of distinct items is a subcycle of itself, entered anywhere. -/
theorem C78_rotation [DecidableEq α] {a : List α} (ha : a ≠ []) (hn : a.Nodup) (i j : Nat) :
    isSubcycleOf (a.rotate i) (a.rotate j) = .ok true := by
  obtain ⟨r, hr, hiff⟩ := C78_subcycle (a := a.rotate i) (b := a.rotate j) (by simpa using ha) (List.nodup_rotate.2 hn)
  rw [hr, hiff.2 ((CyclicSub.rotate_left (b := a) ⟨0, by simp⟩ i).rotate_right j)]

/-- C78: being a subcycle is transitive among cycles of distinct items. -/
theorem C78_trans [DecidableEq α] {a b c : List α} (ha : a ≠ []) (hb : b.Nodup) (hc : c.Nodup)
    (hab : isSubcycleOf a b = .ok true) (hbc : isSubcycleOf b c = .ok true) : isSubcycleOf a c = .ok true := by
  obtain ⟨r, hr, h1⟩ := C78_subcycle ha hb
  have hb0 : b ≠ [] := by
    rintro rfl
    rw [hab] at hr
    obtain ⟨k, hk⟩ := h1.1 (Except.ok.inj hr).symm
    simp at hk
    exact ha hk
  obtain ⟨s, hs, h2⟩ := C78_subcycle hb0 hc
  obtain ⟨t, ht, h3⟩ := C78_subcycle ha hc
  rw [hab] at hr
  rw [hbc] at hs
  obtain ⟨k, hk⟩ := h1.1 (Except.ok.inj hr).symm
  obtain ⟨j, hj⟩ := (CyclicSub.rotate_left (h2.1 (Except.ok.inj hs).symm) k)
  rw [ht, h3.2 ⟨j, hk.trans hj⟩]

example : isSubcycleOf [3, 5, 1] [1, 2, 3, 4, 5] = .ok true := by decide
example : isSubcycleOf [3, 1, 5] [1, 2, 3, 4, 5] = .ok false := by decide

/-- C78 fails when the larger cycle visits an item twice: only the first visit is tried as the entry point. -/
theorem C78_repeated_violated : ∃ a b : List Nat, a ≠ [] ∧ CyclicSub a b ∧ isSubcycleOf a b = .ok false :=
  ⟨[1, 3, 2], [1, 2, 1, 3], by decide, ⟨2, by decide⟩, by decide⟩

/-- C78: the empty cycle is a subcycle of none. -/
theorem C78_empty [DecidableEq α] (b : List α) : isSubcycleOf ([] : List α) b = .ok false := by
  unfold isSubcycleOf
  simp

end Cycle

end Arb

end Carbon
