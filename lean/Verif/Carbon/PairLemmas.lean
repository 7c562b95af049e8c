import Verif.Carbon.Pair

/-! Helper lemmas about strings and the pair constructor. -/

namespace Carbon

theorem toUpper_slash (c : Char) : c.toUpper = '/' ↔ c = '/' := by
  unfold Char.toUpper
  split
  · rename_i h
    constructor
    · intro hc
      have hv := congrArg Char.val hc
      exfalso
      have h1 := h.1; have h2 := h.2
      simp only [UInt32.le_iff_toNat_le] at h1 h2
      have := congrArg UInt32.toNat hv
      simp [UInt32.toNat_add] at this
      simp at h1 h2
      omega
    · intro hc; subst hc; revert h; decide
  · rfl

theorem toUpper_of_not {c : Char} (h : ¬ ('a'.val ≤ c.val ∧ c.val ≤ 'z'.val)) : c.toUpper = c := by
  unfold Char.toUpper; rw [dif_neg h]

theorem toUpper_idem (c : Char) : c.toUpper.toUpper = c.toUpper := by
  by_cases h : 'a'.val ≤ c.val ∧ c.val ≤ 'z'.val
  · apply toUpper_of_not
    unfold Char.toUpper
    rw [dif_pos h]
    have h1 := h.1; have h2 := h.2
    simp only [UInt32.le_iff_toNat_le] at h1 h2 ⊢
    simp [UInt32.toNat_add] at h1 h2 ⊢
    omega
  · rw [toUpper_of_not h, toUpper_of_not h]

@[simp] theorem upper_upper (s : Str) : upper (upper s) = upper s := by
  simp [upper, Function.comp_def, toUpper_idem]

@[simp] theorem upper_append (s t : Str) : upper (s ++ t) = upper s ++ upper t := by simp [upper]

@[simp] theorem upper_slash_cons (s : Str) : upper ('/' :: s) = '/' :: upper s := by
  simp [upper]

@[simp] theorem slash_mem_upper (s : Str) : '/' ∈ upper s ↔ '/' ∈ s := by
  simp [upper, toUpper_slash]

@[simp] theorem length_upper (s : Str) : (upper s).length = s.length := by simp [upper]

theorem splitSlash_ne_nil (s : Str) : splitSlash s ≠ [] := by
  cases s with
  | nil => simp [splitSlash]
  | cons c s => 
    unfold splitSlash
    split
    · simp
    · split <;> simp

theorem splitSlash_eq_one {s b : Str} : splitSlash s = [b] ↔ s = b ∧ '/' ∉ b := by
  induction s generalizing b with
  | nil => 
    simp only [splitSlash, List.cons.injEq, and_true]
    constructor
    · rintro rfl; simp
    · rintro ⟨rfl, _⟩; rfl
  | cons c s ih =>
    unfold splitSlash
    split
    · rename_i hc
      subst hc
      constructor
      · intro h
        simp [splitSlash_ne_nil] at h
      · rintro ⟨rfl, h⟩; simp at h
    · rename_i hc
      split
      · rename_i h; exact absurd h (splitSlash_ne_nil s)
      · rename_i h t e
        constructor
        · intro hh
          simp only [List.cons.injEq] at hh
          obtain ⟨rfl, rfl⟩ := hh
          obtain ⟨rfl, hn⟩ := ih.mp e
          refine ⟨rfl, ?_⟩
          simp [hn, Ne.symm hc]
        · rintro ⟨rfl, hn⟩
          simp only [List.mem_cons, not_or] at hn
          have := ih.mpr ⟨rfl, hn.2⟩
          rw [this] at e
          simp only [List.cons.injEq] at e
          obtain ⟨rfl, rfl⟩ := e
          rfl

theorem splitSlash_eq_two {s b q : Str} :
    splitSlash s = [b, q] ↔ s = b ++ '/' :: q ∧ '/' ∉ b ∧ '/' ∉ q := by
  induction s generalizing b with
  | nil => simp [splitSlash]
  | cons c s ih =>
    unfold splitSlash
    split
    · rename_i hc
      subst hc
      constructor
      · intro h
        simp only [List.cons.injEq] at h
        obtain ⟨rfl, h⟩ := h
        obtain ⟨rfl, hq⟩ := splitSlash_eq_one.mp h
        simp [hq]
      · rintro ⟨h, hb, hq⟩
        cases b with
        | nil =>
          simp only [List.nil_append, List.cons.injEq, true_and] at h
          subst h
          rw [splitSlash_eq_one.mpr ⟨rfl, hq⟩]
        | cons d b =>
          simp only [List.cons_append, List.cons.injEq] at h
          rw [← h.1] at hb; simp at hb
    · rename_i hc
      split
      · rename_i h; exact absurd h (splitSlash_ne_nil s)
      · rename_i h t e
        constructor
        · intro hh
          simp only [List.cons.injEq] at hh
          obtain ⟨rfl, rfl⟩ := hh
          obtain ⟨rfl, hb, hq⟩ := ih.mp e
          exact ⟨rfl, by simp [hb, Ne.symm hc], hq⟩
        · rintro ⟨hs, hb, hq⟩
          cases b with
          | nil => simp only [List.nil_append, List.cons.injEq] at hs; exact absurd hs.1 hc
          | cons d b =>
            simp only [List.cons_append, List.cons.injEq] at hs
            obtain ⟨rfl, hs⟩ := hs
            simp only [List.mem_cons, not_or] at hb
            have := ih.mpr ⟨hs, hb.2, hq⟩
            rw [this] at e
            simp only [List.cons.injEq] at e
            obtain ⟨rfl, rfl⟩ := e
            rfl

theorem count_slash_one (s : Str) :
    s.count '/' = 1 ↔ ∃ b q, s = b ++ '/' :: q ∧ '/' ∉ b ∧ '/' ∉ q := by
  constructor
  · intro h
    have hm : '/' ∈ s := by
      rw [← List.count_pos_iff]; omega
    obtain ⟨b, q, rfl⟩ := List.append_of_mem hm
    rw [List.count_append, List.count_cons_self] at h
    exact ⟨b, q, rfl, List.count_eq_zero.mp (by omega), List.count_eq_zero.mp (by omega)⟩
  · rintro ⟨b, q, rfl, hb, hq⟩
    rw [List.count_append, List.count_cons_self, List.count_eq_zero.mpr hb, List.count_eq_zero.mpr hq]

namespace CarbonPair

theorem unpack_eq_ok {s : Str} {bq : Str × Str} :
    unpack s = .ok bq ↔ s = bq.1 ++ '/' :: bq.2 ∧ '/' ∉ bq.1 ∧ '/' ∉ bq.2 := by
  rw [← splitSlash_eq_two]
  unfold unpack
  split
  · rename_i b q h; rw [h]; cases bq; simp
  · rename_i h
    constructor
    · intro hh; exact absurd hh (by simp)
    · intro hh; exact absurd hh (by simpa using h bq.1 bq.2)

theorem make_str_eq_ok {s : Str} {d : Bool} {p : CarbonPair} :
    make (.str s) none none d = .ok p ↔
      ∃ b q, s = b ++ '/' :: q ∧ '/' ∉ b ∧ '/' ∉ q ∧ p = finish b q d none none := by
  cases s with
  | nil => simp [make, fromTokens]
  | cons c s =>
    simp only [make, truthy, Bool.or_self, Bool.false_eq_true, if_false, Py.bind_eq_ok, unpack_eq_ok,
      Except.ok.injEq]
    constructor
    · rintro ⟨bq, ⟨h1, h2, h3⟩, h4⟩; exact ⟨_, _, h1, h2, h3, h4.symm⟩
    · rintro ⟨b, q, h1, h2, h3, h4⟩; exact ⟨(b, q), ⟨h1, h2, h3⟩, h4.symm⟩

theorem make_upper {s : Arg} {b q : Option Str} {d : Bool} {p : CarbonPair} (h : make s b q d = .ok p) :
    upper p.tknb = p.tknb ∧ upper p.tknq = p.tknq := by
  have key : ∀ b q d x y, upper (finish b q d x y).tknb = (finish b q d x y).tknb ∧
      upper (finish b q d x y).tknq = (finish b q d x y).tknq := by
    intro b q d x y; simp [finish]
  have key2 : ∀ b q, fromTokens b q d = .ok p → upper p.tknb = p.tknb ∧ upper p.tknq = p.tknq := by
    intro b q h
    unfold fromTokens at h
    split at h
    · cases h; exact key ..
    · cases h
  unfold make at h
  split at h
  · exact key2 _ _ h
  · exact key2 _ _ h
  · split at h
    · cases h
    · rw [Py.bind_eq_ok] at h
      obtain ⟨_, _, h⟩ := h
      cases h; exact key ..
  · split at h
    · cases h
    · rw [Py.bind_eq_ok] at h
      obtain ⟨_, _, h⟩ := h
      cases h; exact key ..

/-- If the pattern is not contained in the text, replacing changes nothing. -/
theorem replaceDot_of_not_infix {t : Str} : ∀ {s : Str}, ¬ t <:+: s → replaceDot t s = s := by
  intro s
  induction s with
  | nil => intro _; unfold replaceDot; rfl
  | cons c s ih =>
    intro h
    unfold replaceDot
    rw [if_neg, ih]
    · intro hi; exact h (hi.trans (List.infix_cons (List.infix_refl s)))
    · rintro ⟨_, hp⟩; exact h hp.isInfix

/-- A pattern at the front is replaced first. -/
theorem replaceDot_prefix {t s : Str} (ht : t ≠ []) : replaceDot t (t ++ s) = '.' :: replaceDot t s := by
  cases t with
  | nil => exact absurd rfl ht
  | cons c t =>
    rw [List.cons_append]
    conv_lhs => unfold replaceDot
    rw [if_pos ⟨by simp, by simp⟩]
    simp

/-- If the pattern occurs at no earlier position, text in front is kept. -/
theorem replaceDot_suffix {t : Str} (ht : t ≠ []) : ∀ {b : Str},
    (∀ i < b.length, ¬ t <+: (b ++ t).drop i) → replaceDot t (b ++ t) = b ++ ['.'] := by
  intro b
  induction b with
  | nil =>
    intro _
    have := replaceDot_prefix (t := t) (s := []) ht
    rw [List.append_nil] at this
    rw [List.nil_append, this]
    simp [replaceDot]
  | cons c b ih =>
    intro h
    rw [List.cons_append]
    unfold replaceDot
    rw [if_neg, ih]
    · rfl
    · intro i hi
      have := h (i + 1) (by simp; omega)
      simpa using this
    · rintro ⟨_, hp⟩
      exact h 0 (by simp) (by simpa using hp)

end CarbonPair
end Carbon
